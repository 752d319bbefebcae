import Verif.Lemmas.Pir
import Verif.Props.BfvNew
/-!
# Lemmas about SealPIR
-/
namespace Fhe.Pir
open Nega Poly ParamsBuilder Ciphertext Props

variable {b : Build} {par : Par} {st : ParamsBuilder} {g : Prg} {sk : SecretKey} {s : IntPoly par.degree} {database : List (List Nat)} {size : Nat} {n : Nat}

/-- A product with a vector of ciphertexts of which one encrypts one and the others zero. -/
theorem dot_select (hb : b.OK) (h : build b st = Res.ok par.toBfvParameters) {K a V : Nat} (ha : a < K) {ct : Nat → Ciphertext} {pt : Nat → Plaintext} {M : Nat → par.Msg} {v : Nat → IntPoly par.degree}
    (hct : ∀ k < K, (ct k).Encrypts par s 1 (if k = a then 1 else 0) (v k) ∧ (ct k).c.length = 2 ∧ (v k).Bounded V) (hpt : ∀ k < K, (pt k).Holds par 1 (M k)) :
    ∃ (r : Ciphertext) (w : IntPoly par.degree), dotProductScalar ((List.range K).map ct) ((List.range K).map pt) = Res.ok r ∧ r.Encrypts par s 1 (M a) w ∧ r.c.length = 2 ∧ r.seed = none ∧
      w.Bounded (K * (par.degree * V * par.plaintext.value)) := by
  obtain ⟨n, hw, -⟩ := build_inv hb h
  have ht := hw.t_pos
  obtain ⟨r, e1, e2, e3, e4⟩ := C49_sum hb h (by omega) (ct := fun k : Fin K => ct k.val) (pt := fun k : Fin K => pt k.val) (m' := fun k => M k.val) (L := 2) (fun k => (hct k.val k.isLt).1) (fun k => hpt k.val k.isLt)
    fun k => (hct k.val k.isLt).2.1
  refine ⟨r, _, ?_, ?_, e3, e4, C49_noise (m' := fun k : Fin K => M k.val) (by omega) fun k => (hct k.val k.isLt).2.2⟩
  · have hx : ∀ {α : Type} (f : Nat → α), (List.range K).map f = List.ofFn fun k : Fin K => f k.val := fun f => by
      refine List.ext_getElem (by simp) fun j h1 h2 => ?_
      simp
    rw [hx, hx]
    exact e1
  · have hsum : ∑ k : Fin K, (if k.val = a then (1 : par.Msg) else 0) * M k.val = M a := by
      rw [Finset.sum_eq_single ⟨a, ha⟩]
      · simp
      · intro k _ hk
        have hk' : k.val ≠ a := fun h => hk (Fin.ext h)
        rw [if_neg hk', MulZeroClass.zero_mul]
      · exact fun h => absurd (Finset.mem_univ _) h
    rw [hsum] at e2
    exact e2

theorem modulusBits_eq (hw : ParWF b n par.toBfvParameters) : SealPir.modulusBits par = some (firstBits par) ∧ 0 < firstBits par ∧ firstBits par ≤ 62 ∧
    ∃ q rest, par.moduli = q :: rest ∧ q < 2 ^ firstBits par := by
  unfold SealPir.modulusBits firstBits
  obtain ⟨q, rest, hq⟩ := List.exists_cons_of_ne_nil hw.ne_nil
  have := hw.moduli.range q (by rw [hq]; simp)
  rw [hq]
  simp only [List.head?_cons, List.headD_cons, Option.bind_eq_bind, Option.bind_some]
  have h62 : bitLen q ≤ 62 := bitLen_le_iff.2 this.2
  refine ⟨?_, bitLen_pos (by omega), h62, q, rest, rfl, lt_two_pow_bitLen q⟩
  show some (64 - (64 - bitLen q)) = _
  congr 1
  omega

theorem partLength_eq (hw : ParWF b n par.toBfvParameters) (hf : Fits par database size) : SealPir.partLength par = some (partCount par) ∧ partCount par < 2 ^ 23 ∧ par.degree * firstBits par < 2 ^ 22 := by
  obtain ⟨h1, h2, h3, -⟩ := modulusBits_eq hw
  obtain ⟨f1, -, -, -⟩ := hf.bits hw
  have h4 : par.degree ≤ 2 ^ 16 := by rw [hw.degree]; exact Nat.pow_le_pow_right (by norm_num) hw.le_16
  have h5 : par.degree * firstBits par < 2 ^ 22 := lt_of_le_of_lt (Nat.mul_le_mul h4 h3) (by norm_num)
  refine ⟨?_, ?_, h5⟩
  · unfold SealPir.partLength mul64
    rw [h1]
    simp only [Option.bind_eq_bind, Option.bind_some]
    rw [if_pos (by omega), Option.bind_some]
    exact divCeil_eq (by omega)
  · refine (Nat.div_lt_iff_lt_mul (by omega)).2 ?_
    generalize par.degree * firstBits par = x at h5 ⊢
    omega

/-- The single row of a polynomial of the last level. -/
theorem single_row (hw : ParWF b n par.toBfvParameters) {l : ContextLevel} (ha : AtLevel b n par (par.moduli.length - 1) l) {p : Poly .ntt} (hv : p.Valid) (hc : p.ctx = l.ctx) :
    ∃ words, p.coeffs = [words] ∧ words.length = par.degree ∧ ∀ x ∈ words, x < 2 ^ firstBits par := by
  obtain ⟨-, -, -, q, rest, hq, hlt⟩ := modulusBits_eq hw
  have hm : p.ctx.moduli = [q] := by
    rw [hc, ha.moduli, hq]
    simp
  have hl : p.coeffs.length = 1 := by rw [hv.rows, hm]; rfl
  obtain ⟨words, hwords⟩ := List.length_eq_one_iff.1 hl
  refine ⟨words, hwords, ?_, fun x hx => ?_⟩
  · rw [hv.columns words (by rw [hwords]; simp), hc, ha.deg]
  · exact lt_trans (hv.reduced 0 q words (by rw [hm]; rfl) (by rw [hwords]; rfl) x hx) hlt

theorem partValues_eq (hw : ParWF b n par.toBfvParameters) (hf : Fits par database size) {p : Poly .ntt} {words : List Nat} (h : p.coeffs = [words]) (hlen : words.length = par.degree)
    (hlt : ∀ x ∈ words, x < 2 ^ firstBits par) :
    ∃ values, SealPir.partValues par (some p) = some values ∧ values.length = partCount par ∧ (∀ x ∈ values, x < 2 ^ Nat.log2 par.plaintext.value) ∧
      SealPir.polyWords par values = some words ∧ IsRechunk (firstBits par) (Nat.log2 par.plaintext.value) words values := by
  obtain ⟨h1, h2, h3, -⟩ := modulusBits_eq hw
  obtain ⟨f1, f2, -, -⟩ := hf.bits hw
  obtain ⟨-, p2, p3⟩ := partLength_eq hw hf
  obtain ⟨values, e1, e2⟩ := transcodeBidirectional_eq h2 (by omega) f1 f2 hlt (by rw [hlen]; omega)
  have hlen' : values.length = partCount par := by rw [e2.2.1, hlen]; rfl
  have hle : values.length * Nat.log2 par.plaintext.value < 2 ^ 64 := by
    rw [hlen']
    calc _ ≤ 2 ^ 23 * 64 := Nat.mul_le_mul p2.le f2
      _ < _ := by norm_num
  obtain ⟨back, e3, e4⟩ := transcodeBidirectional_eq f1 f2 h2 (by omega) e2.1 hle
  have hback := e2.back h2 f1 hlt e4
  refine ⟨values, ?_, hlen', e2.1, ?_, e2⟩
  · unfold SealPir.partValues
    rw [h1]
    simp only [Option.bind_eq_bind, Option.bind_some]
    rw [h, List.flatten_singleton]
    exact e1
  · unfold SealPir.polyWords
    rw [h1]
    simp only [Option.bind_eq_bind, Option.bind_some]
    rw [e3, Option.bind_some, check_eq (by rw [hback, List.length_append, hlen]; omega)]
    show some (back.take par.degree) = some words
    rw [hback, List.take_append_of_le_length (by omega), ← hlen, List.take_length]

theorem chunks_flatten (v : List Nat) (M N : Nat) : ((List.range M).map fun k => padTo N ((v.drop (k * N)).take N)).flatten = padTo (M * N) v := by
  induction M with
  | zero => simp [padTo]
  | succ M ih =>
    rw [List.range_succ, List.map_append, List.flatten_append, ih, Nat.succ_mul, padTo_eq_tab (M * N + N), tab_add, ← padTo_eq_tab]
    congr 1
    simp only [List.map_cons, List.map_nil, List.flatten_cons, List.flatten_nil, List.append_nil]
    rw [padTo_eq_tab]
    refine tab_congr fun i hi => ?_
    rw [List.getD_eq_getElem?_getD, List.getD_eq_getElem?_getD, List.getElem?_take, if_pos hi, List.getElem?_drop]

/-- A polynomial of the last level and its words. -/
structure IsRow (par : Par) (p : Poly .ntt) (words : List Nat) : Prop where
  ctx : par.contextAtLevel (par.moduli.length - 1) = Res.ok p.ctx
  valid : p.Valid
  coeffs : p.coeffs = [words]
  length : words.length = par.degree

/-- The plaintexts that a ciphertext is read as, and the way back. -/
theorem parse_eq (hb : b.OK) (h : build b st = Res.ok par.toBfvParameters) (hf : Fits par database size) {ct : Ciphertext} {m : par.Msg} {v : IntPoly par.degree} (h1 : ct.Encrypts par s (par.moduli.length - 1) m v)
    (h2 : ct.c.length = 2) :
    ∃ (pts : List Plaintext) (ms : Nat → par.Msg) (p0 p1 : Poly .ntt) (w0 w1 v0 v1 : List Nat), SealPir.parse par ct = Res.ok pts ∧ pts.length = foldCount par ∧
      (∀ k (hk : k < pts.length), pts[k].Holds par 1 (ms k)) ∧ ct.c = [p0, p1] ∧ IsRow par p0 w0 ∧ IsRow par p1 w1 ∧
      v0.length = partCount par ∧ v1.length = partCount par ∧ SealPir.polyWords par v0 = some w0 ∧ SealPir.polyWords par v1 = some w1 ∧
      ((List.range (foldCount par)).map fun k => msgCoeffs (ms k)).flatten = padTo (foldCount par * par.degree) (v0 ++ v1) := by
  obtain ⟨n, hw, -⟩ := build_inv hb h
  have ht := hw.t_pos
  have : NeZero par.plaintext.value := ⟨by omega⟩
  obtain ⟨c, F, M, e1, e2, -, -⟩ := h1.phase
  obtain ⟨l, hl, rfl⟩ := ParWF.contextAtLevel_iff.1 e1
  have ha := AtLevel.ofGet hw hl
  obtain ⟨p0, p1, hc⟩ := List.length_eq_two.1 h2
  have hval : ∀ p ∈ ct.c, p.Valid ∧ p.ctx = l.ctx := fun p hp => by
    obtain ⟨hle, hx⟩ := List.forall₂_iff_get.1 e2
    obtain ⟨i, hi, rfl⟩ := List.getElem_of_mem hp
    have := hx i hi (by omega)
    exact ⟨this.valid, this.ctx⟩
  obtain ⟨a1, a2⟩ := hval p0 (by rw [hc]; simp)
  obtain ⟨a3, a4⟩ := hval p1 (by rw [hc]; simp)
  obtain ⟨w0, b1, b2, b3⟩ := single_row hw ha a1 a2
  obtain ⟨w1, b4, b5, b6⟩ := single_row hw ha a3 a4
  obtain ⟨v0, c1, c2, c3, c4, -⟩ := partValues_eq hw hf b1 b2 b3
  obtain ⟨v1, c5, c6, c7, c8, -⟩ := partValues_eq hw hf b4 b5 b6
  obtain ⟨-, -, f3, -⟩ := hf.bits hw
  obtain ⟨g1, g2, -⟩ := partLength_eq hw hf
  obtain ⟨ζ, hζ⟩ := PlaintextVec.exists_root hw
  obtain ⟨l1, hl1⟩ := hw.exists_level (i := 1) (by have := hf.levels; omega)
  have hQ := hf.modulus
  rw [← hw.modulusAt_eq hl1] at hQ
  have hlt : ∀ x ∈ v0 ++ v1, x < par.plaintext.value := fun x hx => by
    rcases List.mem_append.1 hx with hx | hx
    · exact lt_of_lt_of_le (c3 x hx) f3
    · exact lt_of_lt_of_le (c7 x hx) f3
  obtain ⟨ms, m1, m2⟩ := PlaintextVec.encodeU64_msg (encoding := ⟨.poly, 1⟩) hw hζ hl1 hQ (fun h => (by cases h)) true hlt (fun x hx => lt_trans (hlt x hx) hf.word)
  have hcount : PlaintextVec.count (v0 ++ v1).length par.degree = foldCount par := by
    unfold foldCount PlaintextVec.count
    rw [List.length_append, c2, c6, Nat.two_mul]
  rw [hcount] at m1
  refine ⟨(List.range (foldCount par)).map fun k => { par, encoding := some ⟨.poly, 1⟩, polyNtt := enc l1.ctx .ntt true (ofNats l1.ctx (msgCoeffs (ms k))) }, ms, p0, p1, w0, w1, v0, v1, ?_, ?_, ?_, hc,
    ⟨e1 ▸ a2 ▸ rfl, a1, b1, b2⟩, ⟨e1 ▸ a4 ▸ rfl, a3, b4, b5⟩, c2, c6, c4, c8, ?_⟩
  · unfold SealPir.parse mul64
    rw [g1, Res.lift_some, Res.ok_bind, if_pos (by omega), Res.lift_some, Res.ok_bind, hc]
    simp only [List.getElem?_cons_zero, List.getElem?_cons_succ]
    rw [c1, Res.lift_some, Res.ok_bind, c5, Res.lift_some, Res.ok_bind]
    exact m1
  · simp
  · intro k hk
    rw [List.getElem_map, List.getElem_range]
    exact Plaintext.holds_enc hw hl1 hQ _ _ _
  · rw [← chunks_flatten]
    refine congrArg List.flatten (List.map_congr_left fun k _ => ?_)
    exact m2 k

/-- The noise of the ciphertexts of the columns and of the responses. -/
theorem sealPir_response_eq (hb : b.OK) (h : build b st = Res.ok par.toBfvParameters) (hcount : par.moduli.length ≤ 31) (hlev : 3 ≤ par.moduli.length) (hf : Fits par database size)
    (hs : s.Bounded (2 * par.variance)) {dim1 dim2 row : Nat} (hd1 : 0 < dim1) (hd2 : 0 < dim2) (hrow : row < dim1 * dim2) {encoded : List Plaintext} {M : Nat → par.Msg} (hlen : encoded.length = dim1 * dim2)
    (hM : ∀ k (hk : k < encoded.length), encoded[k].Holds par 1 (M k)) {ek : EvaluationKey} {bytes : List Nat} {ct : Nat → Ciphertext} {v : Nat → IntPoly par.degree}
    (hex : expand g ek par bytes dim1 dim2 = Res.ok ((List.range (dim1 + dim2)).map ct)) (hct : ∀ p < dim1 + dim2, (ct p).Encrypts par s 1 (selector par row dim1 dim2 p) (v p) ∧ (ct p).c.length = 2 ∧
      (v p).Bounded (expandedNoise par (RnsScaler.ceilLog2 (dim1 + dim2)))) :
    ∃ (response : Nat → List Nat) (r : Nat → Ciphertext) (ms : Nat → par.Msg) (w : Nat → IntPoly par.degree) (inner : Ciphertext) (x : IntPoly par.degree) (p0 p1 : Poly .ntt) (w0 w1 v0 v1 : List Nat),
      SealPir.response g ek par encoded dim1 dim2 bytes = Res.ok ((List.range (foldCount par)).map response) ∧
      (∀ k < foldCount par, Ciphertext.fromBytes g (response k) par = Res.ok (r k) ∧ (r k).Encrypts par s (par.moduli.length - 1) (ms k) (w k) ∧
        (w k).Bounded (switchedNoise par (columnNoise par (RnsScaler.ceilLog2 (dim1 + dim2)) dim2))) ∧
      inner.Encrypts par s (par.moduli.length - 1) (M row) x ∧ x.Bounded (switchedNoise par (columnNoise par (RnsScaler.ceilLog2 (dim1 + dim2)) dim1)) ∧ inner.seed = none ∧
      inner.c = [p0, p1] ∧ IsRow par p0 w0 ∧ IsRow par p1 w1 ∧
      v0.length = partCount par ∧ v1.length = partCount par ∧ SealPir.polyWords par v0 = some w0 ∧ SealPir.polyWords par v1 = some w1 ∧
      ((List.range (foldCount par)).map fun k => msgCoeffs (ms k)).flatten = padTo (foldCount par * par.degree) (v0 ++ v1) := by
  obtain ⟨n, hw, -⟩ := build_inv hb h
  set l := RnsScaler.ceilLog2 (dim1 + dim2) with hl
  have hsl1 : slice ((List.range (dim1 + dim2)).map ct) 0 dim1 = some ((List.range dim1).map ct) := by
    unfold slice
    rw [check_eq (by simp)]
    refine congrArg some ?_
    rw [List.drop_zero, Nat.sub_zero, ← List.map_take, List.take_range, Nat.min_eq_left (by omega)]
  have hsl2 : slice ((List.range (dim1 + dim2)).map ct) dim1 ((List.range (dim1 + dim2)).map ct).length = some ((List.range dim2).map fun i => ct (dim1 + i)) := by
    unfold slice
    rw [check_eq (by simp)]
    refine congrArg some (List.ext_getElem (by simp) fun i h1 h2 => ?_)
    simp
  obtain ⟨pz⟩ : Nonempty Plaintext := ⟨encoded[0]'(by rw [hlen]; exact Nat.mul_pos hd1 hd2)⟩
  -- the columns
  have hcol : ∀ i, ∃ (r : Ciphertext) (w : IntPoly par.degree), i < dim2 → (do
      let c ← columnProduct encoded ((List.range dim1).map ct) dim2 i
      c.switchToLevel (← lift c.par.maxLevel)) = Res.ok r ∧ r.Encrypts par s (par.moduli.length - 1) (M (i + row / dim2 * dim2)) w ∧ r.c.length = 2 ∧ r.seed = none ∧
      w.Bounded (switchedNoise par (columnNoise par l dim1)) := fun i => by
    by_cases hi : i < dim2
    · obtain ⟨c, w, c1, c2, c3, -, c4⟩ := columnProduct_eq hb h hd1 hlen hM hrow hct hi
      obtain ⟨r, w', q1, q2, q3, q4, q5⟩ := switch_eq hb h hs hlev c2 c3 c4
      exact ⟨r, w', fun _ => ⟨by rw [c1, Res.ok_bind]; exact q1, q2, q3, q4, q5⟩⟩
    · exact ⟨Ciphertext.zero par, 0, fun h => absurd h hi⟩
  choose dots dw hdots using hcol
  have hpar : ∀ i, ∃ (pts : List Plaintext) (ms : Nat → par.Msg) (p0 p1 : Poly .ntt) (w0 w1 v0 v1 : List Nat), i < dim2 → SealPir.parse par (dots i) = Res.ok pts ∧ pts.length = foldCount par ∧
      (∀ k (hk : k < pts.length), pts[k].Holds par 1 (ms k)) ∧ (dots i).c = [p0, p1] ∧ IsRow par p0 w0 ∧ IsRow par p1 w1 ∧
      v0.length = partCount par ∧ v1.length = partCount par ∧ SealPir.polyWords par v0 = some w0 ∧ SealPir.polyWords par v1 = some w1 ∧
      ((List.range (foldCount par)).map fun k => msgCoeffs (ms k)).flatten = padTo (foldCount par * par.degree) (v0 ++ v1) := fun i => by
    by_cases hi : i < dim2
    · obtain ⟨-, h2, h3, -⟩ := hdots i hi
      obtain ⟨pts, ms, p0, p1, w0, w1, v0, v1, hx⟩ := parse_eq hb h hf h2 h3
      exact ⟨pts, ms, p0, p1, w0, w1, v0, v1, fun _ => hx⟩
    · exact ⟨[], 0, pz.polyNtt, pz.polyNtt, [], [], [], [], fun h => absurd h hi⟩
  choose pts ms p0 p1 w0 w1 v0 v1 hpts using hpar
  have ha : row % dim2 < dim2 := Nat.mod_lt _ hd2
  -- the responses
  have hres : ∀ k, ∃ (resp : List Nat) (r : Ciphertext) (w : IntPoly par.degree), k < foldCount par → (do
      let rest ← lift (slice ((List.range (dim1 + dim2)).map ct) dim1 ((List.range (dim1 + dim2)).map ct).length)
      let column ← lift (((List.range dim2).map pts).mapM (·[k]?))
      let out ← dotProductScalar rest column
      let out ← out.switchToLevel (← lift out.par.maxLevel)
      lift out.toBytes) = Res.ok resp ∧ Ciphertext.fromBytes g resp par = Res.ok r ∧ r.Encrypts par s (par.moduli.length - 1) (ms (row % dim2) k) w ∧
      w.Bounded (switchedNoise par (columnNoise par l dim2)) := fun k => by
    by_cases hk : k < foldCount par
    · have hlk : ∀ i < dim2, k < (pts i).length := fun i hi => by rw [(hpts i hi).2.1]; exact hk
      obtain ⟨pt, hpt⟩ : ∃ pt : Nat → Plaintext, ∀ i < dim2, (pts i)[k]? = some (pt i) ∧ (pt i).Holds par 1 (ms i k) := by
        refine ⟨fun i => (pts i).getD k (pz), fun i hi => ?_⟩
        have := hlk i hi
        have h3 := (hpts i hi).2.2.1 k this
        simp only [List.getD_eq_getElem?_getD, List.getElem?_eq_getElem this, Option.getD_some, true_and]
        exact h3
      have hcolumn : ((List.range dim2).map pts).mapM (·[k]?) = some ((List.range dim2).map pt) := by
        rw [List.mapM_map]
        exact mapM_eq_some_map fun i hi => (hpt i (List.mem_range.1 hi)).1
      obtain ⟨c, w, c1, c2, c3, -, c4⟩ := dot_select (s := s) (V := expandedNoise par l) hb h ha (ct := fun i => ct (dim1 + i)) (pt := pt) (M := fun i => ms i k) (v := fun i => v (dim1 + i)) (fun i hi => by
        obtain ⟨d1, d2, d3⟩ := hct (dim1 + i) (by omega)
        have hsel : selector par row dim1 dim2 (dim1 + i) = if i = row % dim2 then 1 else 0 := by
          have ha : row / dim2 < dim1 := (Nat.div_lt_iff_lt_mul hd2).2 hrow
          unfold selector
          by_cases hi' : i = row % dim2
          · rw [if_pos (Or.inr (by rw [hi'])), if_pos hi']
          · rw [if_neg (by omega), if_neg hi']
        rw [hsel] at d1
        exact ⟨d1, d2, d3⟩) fun i hi => (hpt i hi).2
      obtain ⟨r2, w2, q1, q2, q3, q4, q5⟩ := switch_eq hb h hs hlev c2 c3 c4
      obtain ⟨response, r3, f1, -, f2, f3, f4⟩ := C62_ciphertext hb h (by omega) (C47_wellFormed (g := g) hb h q2 q4)
      refine ⟨response, r3, w2, fun _ => ⟨?_, f2, q2.of_beq hw f3 f4, q5⟩⟩
      rw [hsl2, Res.lift_some, Res.ok_bind, hcolumn, Res.lift_some, Res.ok_bind, c1, Res.ok_bind]
      have := q1
      cases hmx : c.par.maxLevel with
      | none => rw [hmx] at this; exact absurd this (by simp [lift]; exact Res.panic_ne_ok)
      | some x =>
        rw [hmx, Res.lift_some, Res.ok_bind] at this
        rw [Res.lift_some, Res.ok_bind, this, Res.ok_bind, f1, Res.lift_some]
    · exact ⟨[], Ciphertext.zero par, 0, fun h => absurd h hk⟩
  choose resp r w hresp using hres
  obtain ⟨-, d2, -, d4, d5⟩ := hdots (row % dim2) ha
  obtain ⟨-, -, -, t1, t2, t3, t4, t5, t6, t7, t8⟩ := hpts (row % dim2) ha
  rw [Nat.mod_add_div'] at d2
  refine ⟨resp, r, ms (row % dim2), w, dots (row % dim2), dw (row % dim2), p0 (row % dim2), p1 (row % dim2), w0 _, w1 _, v0 _, v1 _, ?_, fun k hk => (hresp k hk).2, d2, d5, d4, t1, t2, t3, t4, t5, t6, t7, t8⟩
  unfold SealPir.response
  rw [hex, Res.ok_bind, hsl1, Res.lift_some, Res.ok_bind, PlaintextVec.mapM_ok fun i hi => (hdots i (List.mem_range.1 hi)).1, Res.ok_bind, List.mapM_map]
  have hparse : (List.range dim2).mapM (SealPir.parse par ∘ dots) = Res.ok ((List.range dim2).map pts) := PlaintextVec.mapM_ok fun i hi => (hpts i (List.mem_range.1 hi)).1
  rw [hparse, Res.ok_bind]
  have hhead : ((List.range dim2).map pts).head? = some (pts 0) := by
    cases dim2 with
    | zero => omega
    | succ d => simp [List.range_succ_eq_map]
  rw [hhead, Res.lift_some, Res.ok_bind, (hpts 0 hd2).2.1]
  exact PlaintextVec.mapM_ok fun k hk => (hresp k (List.mem_range.1 hk)).1

theorem tryFromU64Ntt_row (hw : ParWF b n par.toBfvParameters) {p : Poly .ntt} {words : List Nat} (h : IsRow par p words) (vt : Bool) :
    ∃ p', tryFromU64Ntt words p.ctx vt = some (.ok p') ∧ p'.beq p = true ∧ p'.ctx = p.ctx := by
  obtain ⟨l, hl, hc⟩ := ParWF.contextAtLevel_iff.1 h.ctx
  have ha := AtLevel.ofGet hw hl
  have hq : p.ctx.q.length = 1 := by
    rw [← hc, ha.wf.level.q, List.length_map, ← List.length_map (f := (·.p.p)), ← ha.wf.level.moduli, hc, ← h.valid.rows, h.coeffs]
    rfl
  have hd : p.ctx.degree = par.degree := by rw [← hc, ha.deg]
  refine ⟨{ ctx := p.ctx, vt, coeffs := [words], shoup := none, hasLazy := false }, ?_, ?_, rfl⟩
  · unfold tryFromU64Ntt fromShapeVec
    rw [hq, hd, if_pos (by rw [h.length, Nat.one_mul])]
    simp only [splitRows]
    rw [← h.length, List.take_length]
  · simp only [Poly.beq, decide_true, Bool.true_and, h.valid.notLazy, h.coeffs, h.valid.shoup]
    simp

/-- What the client computes. -/
theorem sealPir_answer_eq (hb : b.OK) (h : build b st = Res.ok par.toBfvParameters) (hk : sk.IsKey par s) (hsum : par.moduli.sum ≤ 2 ^ 65) (hlev : par.moduli.length = 3) (hf : Fits par database size)
    (hlast : 2 * par.plaintext.value ≤ par.modulusAt 2) {index : Nat} (hi : index < database.length) {response : Nat → List Nat} {r : Nat → Ciphertext} {ms : Nat → par.Msg} {w : Nat → IntPoly par.degree} {inner : Ciphertext}
    {m : par.Msg} {x : IntPoly par.degree} {p0 p1 : Poly .ntt} {w0 w1 v0 v1 : List Nat}
    (hr : ∀ k < foldCount par, Ciphertext.fromBytes g (response k) par = Res.ok (r k) ∧ (r k).Encrypts par s 2 (ms k) (w k) ∧ (w k).Small (par.modulusAt 2))
    (h1 : inner.Encrypts par s 2 m x) (hx : x.Small (par.modulusAt 2)) (hseed : inner.seed = none) (hc : inner.c = [p0, p1]) (h2 : IsRow par p0 w0) (h3 : IsRow par p1 w1)
    (h4 : v0.length = partCount par) (h5 : v1.length = partCount par) (h6 : SealPir.polyWords par v0 = some w0) (h7 : SealPir.polyWords par v1 = some w1)
    (h8 : ((List.range (foldCount par)).map fun k => msgCoeffs (ms k)).flatten = padTo (foldCount par * par.degree) (v0 ++ v1)) (hm : HoldsRow par database size (index / perRow par size) m) :
    SealPir.answer b g sk par size index ((List.range (foldCount par)).map response) = Res.ok database[index] := by
  obtain ⟨n, hw, -⟩ := build_inv hb h
  have ht := hw.t_pos
  have : NeZero par.plaintext.value := ⟨by omega⟩
  have hrel : par.toBfvParameters.Reliable 2 := by
    refine ⟨by omega, hsum, hlast, fun _ q hq => ?_⟩
    unfold BfvParameters.modulusAt at hlast
    rw [hlev] at hlast
    cases hmod : par.moduli with
    | nil => rw [hmod] at hq; cases hq
    | cons q0 rest =>
      rw [hmod] at hq hlast
      obtain rfl : q0 = q := by simpa using hq
      simpa using hlast
  have hun : ∀ {α : Type} (a : α), Pir.unwrap (Res.ok a) = Res.ok a := fun a => rfl
  -- the responses
  have hpt : ∀ k, ∃ pt, k < foldCount par → (sk.tryDecrypt b (r k)).okOrNone = some (some pt) ∧ pt.decodeU64 (some ⟨.poly, 2⟩) = Res.ok (msgCoeffs (ms k)) := fun k => by
    by_cases hkk : k < foldCount par
    · obtain ⟨-, r2, r3⟩ := hr k hkk
      obtain ⟨pt, d1, d2, d3⟩ := C37_decrypt hb h hrel hk r2 r3
      have hdec := (C35_decode hb h (lv := 2) d2 (Or.inl d3)).2
      rw [if_pos fun x hx => lt_trans (msgCoeffs_lt (ms k) x hx) hf.word] at hdec
      exact ⟨pt, fun _ => ⟨by rw [d1]; rfl, hdec⟩⟩
    · exact ⟨⟨par, none, p0⟩, fun h => absurd h hkk⟩
  choose pt hpt using hpt
  have e1 : ((List.range (foldCount par)).map response).mapM (fun r => Pir.unwrap (Ciphertext.fromBytes g r par)) = Res.ok ((List.range (foldCount par)).map r) := by
    rw [List.mapM_map]
    refine PlaintextVec.mapM_ok fun k hk => ?_
    show Pir.unwrap (Ciphertext.fromBytes g (response k) par) = _
    rw [(hr k (List.mem_range.1 hk)).1, hun]
  have e2 : ((List.range (foldCount par)).map r).mapM (fun r => (sk.tryDecrypt b r).okOrNone) = some ((List.range (foldCount par)).map fun k => some (pt k)) := by
    rw [List.mapM_map]
    exact mapM_eq_some_map fun k hk => (hpt k (List.mem_range.1 hk)).1
  have e3 : (((List.range (foldCount par)).map fun k => some (pt k)).filterMap id).mapM (fun pt => Pir.unwrap (Plaintext.decodeU64 pt (some ⟨.poly, 2⟩))) = Res.ok ((List.range (foldCount par)).map fun k => msgCoeffs (ms k)) := by
    rw [List.filterMap_map, show (id ∘ fun k => some (pt k)) = fun k => some (pt k) from rfl, List.filterMap_eq_map', List.mapM_map]
    refine PlaintextVec.mapM_ok fun k hk => ?_
    show Pir.unwrap (Plaintext.decodeU64 (pt k) _) = _
    rw [(hpt k (List.mem_range.1 hk)).2, hun]
  -- the values
  obtain ⟨g1, g2, -⟩ := partLength_eq hw hf
  have hN : 0 < par.degree := by rw [hw.degree]; positivity
  have hle : 2 * partCount par ≤ foldCount par * par.degree := by
    unfold foldCount
    have := le_ceil_mul (a := 2 * partCount par) hN
    rw [Nat.mul_comm par.degree] at this
    exact this.trans (Nat.mul_le_mul_right _ (le_max_left _ _))
  have hpad : padTo (foldCount par * par.degree) (v0 ++ v1) = v0 ++ v1 ++ List.replicate (foldCount par * par.degree - (v0 ++ v1).length) 0 := padTo_append (by rw [List.length_append, h4, h5]; omega)
  have hs0 : slice (padTo (foldCount par * par.degree) (v0 ++ v1)) 0 (partCount par) = some v0 := by
    unfold slice
    rw [hpad, check_eq (by simp [h4, h5]), List.append_assoc, List.drop_zero, Nat.sub_zero, List.take_append_of_le_length (by omega), ← h4, List.take_length]
    rfl
  have hs1 : slice (padTo (foldCount par * par.degree) (v0 ++ v1)) (partCount par) (2 * partCount par) = some v1 := by
    unfold slice
    rw [hpad, check_eq (by simp [h4, h5]; omega), List.append_assoc, ← h4, List.drop_left, Nat.two_mul, Nat.add_sub_cancel, h4, ← h5, List.take_append_of_le_length (le_refl _), List.take_length]
    rfl
  have hctx : par.contextAtLevel 2 = Res.ok p0.ctx := by have := h2.ctx; rwa [hlev] at this
  have hctx' : p1.ctx = p0.ctx := by have := h3.ctx; rw [hlev, hctx] at this; exact (Res.ok_inj.1 this).symm
  obtain ⟨q0, a1, a2, a3⟩ := tryFromU64Ntt_row hw h2 true
  obtain ⟨q1, a4, a5, a6⟩ := tryFromU64Ntt_row hw h3 true
  obtain ⟨-, hnew, -, -⟩ := C48_new hb h [q0, q1]
  have hct := (hnew { par, seed := none, c := [q0, q1], level := 2 }).2 ⟨by simp, rfl, rfl, rfl, by simp only []; omega, by
    intro p hp
    simp only [List.mem_cons, List.not_mem_nil, or_false] at hp
    rcases hp with rfl | rfl
    · rw [a3]; exact hctx
    · rw [a6, hctx']; exact hctx⟩
  have henc := h1.of_beq hw (r := { par, seed := none, c := [q0, q1], level := 2 }) (by
    simp [Ciphertext.beq, h1.par_eq, h1.level_eq, hseed, hc, a2, a5]) rfl
  obtain ⟨ptx, d1, d2, d3⟩ := C37_decrypt hb h hrel hk henc hx
  obtain ⟨noise, -, n1, -⟩ := C59_measure_noise hb h hrel hk henc hx
  have hdec := (C35_decode hb h (lv := 2) d2 (Or.inl d3)).2
  rw [if_pos fun x hx => lt_trans (msgCoeffs_lt m x hx) hf.word] at hdec
  obtain ⟨out, t1, t2, t3, -⟩ := hm.bytes_eq hw hf hi
  unfold SealPir.answer
  rw [e1, Res.ok_bind, e2, Res.lift_some, Res.ok_bind, e3, Res.ok_bind]
  simp only []
  rw [h8, g1, Res.lift_some, Res.ok_bind]
  have hmul : mul64 2 (partCount par) = some (2 * partCount par) := by unfold mul64; rw [if_pos (by omega)]
  rw [hmul, Res.lift_some, Res.ok_bind, check_eq (by rw [hpad]; simp [h4, h5]; omega), Res.lift_some, Res.ok_bind, hs0, Res.lift_some, Res.ok_bind, h6, Res.lift_some, Res.ok_bind, hs1, Res.lift_some, Res.ok_bind, h7,
    Res.lift_some, Res.ok_bind, hctx, Res.ok_bind, a1]
  have hmath : ∀ {α : Type} (a : α), math (some (.ok a)) = Res.ok a := fun a => rfl
  rw [hmath, Res.ok_bind, ← hctx', a4, hmath, Res.ok_bind, hct, Res.ok_bind, d1, hun, Res.ok_bind, hdec, Res.ok_bind, t1, Res.lift_some, Res.ok_bind, numberElements_eq hw hf, Res.lift_some, Res.ok_bind,
    check_eq (Nat.pos_iff_ne_zero.1 hf.per_pos), Res.lift_some, Res.ok_bind, n1]
  have hrun : lift (ExceptT.run (Res.ok noise)) = Res.ok (Except.ok noise) := rfl
  rw [hrun, Res.ok_bind]
  unfold slice
  rw [check_eq ⟨Nat.mul_le_mul_right _ (Nat.le_succ _), t2⟩, show (index % perRow par size + 1) * size - index % perRow par size * size = size by rw [Nat.succ_mul]; omega, ← t3]
  rfl

/-- The exchange between client and server: every step succeeds. -/
theorem sealPir_eq (hb : b.OK) (h : build b st = Res.ok par.toBfvParameters) (hg : g.OK) {egcd : Nat → Nat → Nat × Int} (he : EgcdContract egcd) (hodd : par.plaintext.value % 2 = 1) (hcount : par.moduli.length ≤ 31)
    (hlev : 3 ≤ par.moduli.length) (hf : Fits par database size) {dim1 dim2 : Nat} (hdim1 : dim1 = dimension1 par database.length size) (hdim2 : dim2 = dimension2 par database.length size) (hN : dim1 + dim2 ≤ par.degree)
    {index : Nat} (hi : index < database.length) {r : Random} (hr : r.OK) :
    ∃ (encoded : List Plaintext) (sk : SecretKey) (s : IntPoly par.degree) (ek ek' : EvaluationKey) (ekBytes question : List Nat) (response : Nat → List Nat) (rs : Nat → Ciphertext) (ms : Nat → par.Msg)
      (w : Nat → IntPoly par.degree) (inner : Ciphertext) (m : par.Msg) (x : IntPoly par.degree) (p0 p1 : Poly .ntt) (w0 w1 v0 v1 : List Nat),
      encodeDatabase database par 1 = Res.ok (encoded, dim1, dim2) ∧
      SecretKey.random par r.secret = some sk ∧ sk.IsKey par s ∧
      evaluationKey b g sk dim1 dim2 r = Res.ok ek ∧ ek.toBytes = some ekBytes ∧ EvaluationKey.fromBytes b g ekBytes par = Res.ok ek' ∧
      query g egcd sk par size index dim1 dim2 r = Res.ok question ∧
      SealPir.response g ek' par encoded dim1 dim2 question = Res.ok ((List.range (foldCount par)).map response) ∧
      (∀ k < foldCount par, Ciphertext.fromBytes g (response k) par = Res.ok (rs k) ∧ (rs k).Encrypts par s (par.moduli.length - 1) (ms k) (w k) ∧ (w k).Bounded (sealPirOuter par dim1 dim2)) ∧
      inner.Encrypts par s (par.moduli.length - 1) m x ∧ x.Bounded (sealPirInner par dim1 dim2) ∧ inner.seed = none ∧
      inner.c = [p0, p1] ∧ IsRow par p0 w0 ∧ IsRow par p1 w1 ∧
      v0.length = partCount par ∧ v1.length = partCount par ∧ SealPir.polyWords par v0 = some w0 ∧ SealPir.polyWords par v1 = some w1 ∧
      ((List.range (foldCount par)).map fun k => msgCoeffs (ms k)).flatten = padTo (foldCount par * par.degree) (v0 ++ v1) ∧ HoldsRow par database size (index / perRow par size) m := by
  subst hdim1 hdim2
  obtain ⟨encoded, M, e1, e2, e3, e4⟩ := encodeDatabase_eq hb h hf
  obtain ⟨sk, s, s1, s2, s3⟩ := C37_secret_key hb h hr.secret
  have hd1 := hf.dim1_pos
  have hd2 := hf.dim2_pos
  have hrow := hf.row_lt hi
  have hrow' := lt_of_lt_of_le hrow hf.rows_le
  obtain ⟨ek, ek', ekBytes, k1, k2, k3, k4, k5, k6⟩ := evaluationKey_eq hb h hg s2 hcount (by omega) (Nat.add_pos_left hd1 _) hN hr.galoisSeeds hr.galois
  obtain ⟨question, ct, m, v, q1, q2, q3, q4, q5, q6⟩ := query_eq hb h hg s2 he hodd (by omega) hf hd2 hrow' hN hr.querySeed hr.query
  obtain ⟨cts, vs, x1, x2⟩ := expand_eq hb h s3 k4 k5 k6 (Nat.add_pos_left hd1 _) hN q2 q3 q4 q5 q6
  obtain ⟨response, rs, ms, w, inner, x, p0, p1, w0, w1, v0, v1, r1, r2, r3, r4, r5, r6, r7, r8, r9, r10, r11, r12, r13⟩ := sealPir_response_eq hb h hcount hlev hf s3 hd1 hd2 hrow' e2 e3 x1 x2
  exact ⟨encoded, sk, s, ek, ek', ekBytes, question, response, rs, ms, w, inner, _, x, p0, p1, w0, w1, v0, v1, e1, s1, s2, k1, k2, k3, q1, r1, r2, r3, r4, r5, r6, r7, r8, r9, r10, r11, r12, r13, e4 _ hrow⟩

theorem switchedNoise_mono (par : Par) {V W : Nat} (h : V ≤ W) : switchedNoise par V ≤ switchedNoise par W := by
  unfold switchedNoise
  simp only []
  gcongr

theorem columnNoise_mono (par : Par) {l l' d e : Nat} (h : d ≤ e) (hl : l ≤ l') : columnNoise par l d ≤ columnNoise par l' e := by
  unfold columnNoise expandedNoise
  gcongr <;> norm_num

end Fhe.Pir
