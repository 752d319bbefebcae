import Verif.Lemmas.PirDb
import Verif.Props.BfvEval
import Verif.Props.BfvDot
import Verif.Props.BfvMul
import Verif.Props.BfvSer
import Verif.Props.Wire
import Verif.Props.Util
import Verif.Lemmas.BfvEncode
/-!
# Lemmas about the PIR examples
-/
namespace Fhe.Pir
open Nega Poly ParamsBuilder Ciphertext Props

variable {b : Build} {par : Par} {st : ParamsBuilder} {g : Prg} {sk : SecretKey} {s : IntPoly par.degree} {database : List (List Nat)} {size : Nat}

variable {n : Nat}

theorem Fits.bits (hw : ParWF b n par.toBfvParameters) (hf : Fits par database size) :
    1 ≤ Nat.log2 par.plaintext.value ∧ Nat.log2 par.plaintext.value ≤ 64 ∧ 2 ^ Nat.log2 par.plaintext.value ≤ par.plaintext.value ∧ Nat.log2 par.plaintext.value * par.degree < 2 ^ 23 := by
  have ht := hw.t_pos
  have h1 : Nat.log2 par.plaintext.value < 64 := (Nat.log2_lt (by omega)).2 hf.word
  have h2 : par.degree ≤ 2 ^ 16 := by rw [hw.degree]; exact Nat.pow_le_pow_right (by norm_num) hw.le_16
  refine ⟨(Nat.le_log2 (by omega)).2 (by omega), by omega, Nat.log2_self_le (by omega), ?_⟩
  calc _ ≤ 63 * 2 ^ 16 := Nat.mul_le_mul (by omega) h2
    _ < _ := by norm_num

theorem Fits.per_pos (hf : Fits par database size) : 0 < perRow par size := by
  have := hf.pos
  exact Nat.div_pos hf.fits (by omega)

theorem per_le (par : Par) (size : Nat) : perRow par size * size * 8 ≤ Nat.log2 par.plaintext.value * par.degree := by
  rw [Nat.mul_assoc]
  exact Nat.div_mul_le_self _ _

theorem numberElements_eq (hw : ParWF b n par.toBfvParameters) (hf : Fits par database size) : numberElements par.degree (Nat.log2 par.plaintext.value) size = some (perRow par size) := by
  obtain ⟨-, -, -, h4⟩ := hf.bits hw
  have h5 := hf.fits
  have h6 := hf.pos
  unfold numberElements mul64
  rw [if_pos (by omega), if_pos (by omega)]
  simp only [Option.bind_eq_bind, Option.bind_some]
  rw [check_eq (by omega)]
  rfl

theorem Fits.rows_pos (hf : Fits par database size) : 0 < rowCount par database.length size := by
  have h1 := hf.per_pos
  have h2 : 0 < database.length := List.length_pos_of_ne_nil hf.ne
  exact Nat.div_pos (by omega) h1

theorem Fits.dim1_pos (hf : Fits par database size) : 0 < dimension1 par database.length size := ceilSqrt_pos hf.rows_pos

theorem Fits.dim2_pos (hf : Fits par database size) : 0 < dimension2 par database.length size := by
  have := hf.rows_pos
  have := hf.dim1_pos
  exact Nat.div_pos (by omega) hf.dim1_pos

theorem Fits.rows_le (hf : Fits par database size) : rowCount par database.length size ≤ dimension1 par database.length size * dimension2 par database.length size := le_ceil_mul hf.dim1_pos

theorem Fits.row_lt (hf : Fits par database size) {index : Nat} (hi : index < database.length) : index / perRow par size < rowCount par database.length size := by
  have h1 := le_ceil_mul (a := database.length) hf.per_pos
  rw [Nat.div_lt_iff_lt_mul hf.per_pos, Nat.mul_comm]
  exact lt_of_lt_of_le hi h1

/-- A message holds a row: its coefficients are the bytes of the row, rechunked. -/
def HoldsRow (par : Par) (database : List (List Nat)) (size i : Nat) (m : par.Msg) : Prop :=
  ∃ bytes values : List Nat, (∀ x ∈ bytes, x < 2 ^ 8) ∧ bytes.length = perRow par size * size ∧ IsRechunk 8 (Nat.log2 par.plaintext.value) bytes values ∧ values.length ≤ par.degree ∧
    msgCoeffs m = padTo par.degree values ∧ ∀ j < perRow par size, ∀ e, database[j + i * perRow par size]? = some e → (bytes.drop (j * size)).take size = e

theorem row_eq (hb : b.OK) (h : build b st = Res.ok par.toBfvParameters) (hf : Fits par database size) (i : Nat) :
    ∃ (pt : Plaintext) (m : par.Msg), (do
      let bytes ← lift (rowBytes database size (perRow par size) i)
      let values ← lift (transcodeFromBytes bytes (Nat.log2 par.plaintext.value))
      unwrap (Plaintext.tryEncodeU64 values ⟨.poly, 1⟩ par true)) = Res.ok pt ∧ pt.Holds par 1 m ∧ HoldsRow par database size i m := by
  obtain ⟨n, hw, -⟩ := build_inv hb h
  obtain ⟨h1, h2, h3, h4⟩ := hf.bits hw
  have hle := per_le par size
  obtain ⟨bytes, e1, e2, e3, e4⟩ := rowBytes_eq (per := perRow par size) hf.elements i
  obtain ⟨values, f1, f2⟩ := transcodeFromBytes_eq (n := Nat.log2 par.plaintext.value) h1 h2 e3 (by rw [e2]; omega)
  have hlen : values.length ≤ par.degree := by
    obtain ⟨-, f3, -⟩ := f2
    rw [f3, e2]
    refine Nat.le_of_lt_succ ((Nat.div_lt_iff_lt_mul h1).2 ?_)
    rw [Nat.succ_mul, Nat.mul_comm par.degree]; omega
  have hlt : ∀ x ∈ values, x < par.plaintext.value := fun x hx => lt_of_lt_of_le (f2.1 x hx) h3
  obtain ⟨m, -, m2, -, m4⟩ := C35_poly hb h (level := 1) (by have := hf.levels; omega) hf.modulus hlen hlt
  obtain ⟨pt, p1, p2, -⟩ := m4 (fun x hx => lt_trans (hlt x hx) hf.word) true
  refine ⟨pt, m, ?_, p2, bytes, values, e3, e2, f2, hlen, m2, e4⟩
  rw [e1, Res.lift_some, Res.ok_bind, f1, Res.lift_some, Res.ok_bind, p1]
  rfl

theorem encodeDatabase_eq (hb : b.OK) (h : build b st = Res.ok par.toBfvParameters) (hf : Fits par database size) :
    ∃ (encoded : List Plaintext) (M : Nat → par.Msg), encodeDatabase database par 1 = Res.ok (encoded, dimension1 par database.length size, dimension2 par database.length size) ∧
      encoded.length = dimension1 par database.length size * dimension2 par database.length size ∧
      (∀ k (hk : k < encoded.length), encoded[k].Holds par 1 (M k)) ∧ ∀ k < rowCount par database.length size, HoldsRow par database size k (M k) := by
  obtain ⟨n, hw, -⟩ := build_inv hb h
  choose pt m e1 e2 e3 using row_eq hb h hf
  obtain ⟨m0, -, -, -, m4⟩ := C35_poly hb h (level := 1) (v := []) (by have := hf.levels; omega) hf.modulus (by simp) (by simp)
  obtain ⟨pt0, p1, p2, -⟩ := m4 (by simp) true
  set rows := rowCount par database.length size with hrows
  have hle := hf.rows_le
  obtain ⟨first, rest, hdb⟩ := List.exists_cons_of_ne_nil hf.ne
  have hfirst : first.length = size := (hf.elements first (by rw [hdb]; simp)).1
  refine ⟨(List.range rows).map pt ++ List.replicate (dimension1 par database.length size * dimension2 par database.length size - rows) pt0, fun k => if k < rows then m k else m0, ?_, ?_, fun k hk => ?_, fun k hk => ?_⟩
  · unfold encodeDatabase
    have hhead : database.head? = some first := by rw [hdb]; rfl
    rw [hhead, Res.lift_some, Res.ok_bind, check_eq hf.word, Res.lift_some, Res.ok_bind]
    simp only [hfirst]
    rw [numberElements_eq hw hf, Res.lift_some, Res.ok_bind, divCeil_eq hf.per_pos, Res.lift_some, Res.ok_bind]
    have hd1 : ceilSqrt ((database.length + perRow par size - 1) / perRow par size) = dimension1 par database.length size := rfl
    have hr1 : (database.length + perRow par size - 1) / perRow par size = rows := rfl
    rw [hd1, hr1, divCeil_eq hf.dim1_pos, Res.lift_some, Res.ok_bind, p1]
    have hd2 : (rows + dimension1 par database.length size - 1) / dimension1 par database.length size = dimension2 par database.length size := rfl
    rw [hd2]
    have hu : unwrap (Res.ok pt0) = Res.ok pt0 := rfl
    rw [hu, Res.ok_bind, PlaintextVec.mapM_ok (g := pt) fun i _ => e1 i, Res.ok_bind, check_eq hle, Res.lift_some, Res.ok_bind]
    rfl
  · rw [List.length_append, List.length_map, List.length_range, List.length_replicate]; omega
  · simp only [List.getElem_append, List.length_map, List.length_range]
    split
    · simpa using e2 k
    · simpa using p2
  · simp only [if_pos hk]; exact e3 k

/-! ## The query -/

theorem ceilLog2_spec' {m : Nat} (hm : 1 ≤ m) : m ≤ 2 ^ RnsScaler.ceilLog2 m ∧ ∀ l, m ≤ 2 ^ l → RnsScaler.ceilLog2 m ≤ l := by
  by_cases h1 : m = 1
  · subst h1
    rw [show RnsScaler.ceilLog2 1 = 0 from rfl]
    exact ⟨by norm_num, fun l _ => Nat.zero_le l⟩
  · obtain ⟨h2, h3⟩ := RnsScaler.ceilLog2_spec (a := m) (by omega)
    refine ⟨h2, fun l hl => ?_⟩
    have h4 : 2 ^ RnsScaler.ceilLog2 m < 2 ^ (l + 1) := by rw [pow_succ]; omega
    have := (Nat.pow_lt_pow_iff_right (by norm_num : 1 < 2)).1 h4
    omega

theorem expansionLevel_eq {dim1 dim2 : Nat} (h : dim1 + dim2 ≤ 2 ^ 63) : expansionLevel dim1 dim2 = some (RnsScaler.ceilLog2 (dim1 + dim2)) := by
  unfold expansionLevel add64
  rw [if_pos (by omega)]
  simp only [Option.bind_eq_bind, Option.bind_some]
  rw [check_eq h]
  rfl

theorem setAt_eq {v : List Nat} {i x : Nat} (h : i < v.length) : setAt v i x = some (v.set i x) := by
  unfold setAt
  rw [check_eq h]
  rfl

/-- The message selected by a position of the expanded query. -/
def selector (par : Par) (row dim1 dim2 p : Nat) : par.Msg := if p = row / dim2 ∨ p = dim1 + row % dim2 then 1 else 0

theorem expand_selector {l total row dim1 dim2 p : Nat} {m : par.Msg} (hl : total ≤ 2 ^ l) (hN : total ≤ par.degree) (hp : p < total)
    (hm : ∀ j, 2 ^ l * coeff m j = if j = row / dim2 ∨ j = dim1 + row % dim2 then 1 else 0) (hz : ∀ j, total ≤ j → coeff m j = 0) :
    expandMsg l p m = selector par row dim1 dim2 p := by
  refine Nega.ext fun q => ?_
  have h0 := hm p
  have hc : ∀ (j : Nat) (hj : j < par.degree), coeff m j = m ⟨j, hj⟩ := fun j hj => dif_pos hj
  have hsel : selector par row dim1 dim2 p q = if q.val = 0 then (if p = row / dim2 ∨ p = dim1 + row % dim2 then 1 else 0) else 0 := by
    unfold selector
    split
    · rfl
    · split <;> rfl
  rw [hsel]
  unfold expandMsg
  by_cases hq : q.val = 0
  · rw [dif_pos ⟨by rw [hq]; simp, by omega⟩, if_pos hq, ← h0, hc p (by omega)]
    congr 2
    exact Fin.ext (by simp [hq])
  · rw [if_neg hq]
    split
    · rename_i hd
      rw [← hc _ hd.2, hz _ (by have := Nat.le_of_dvd (by omega) hd.1; omega), MulZeroClass.mul_zero]
    · rfl

theorem query_eq (hb : b.OK) (h : build b st = Res.ok par.toBfvParameters) (hg : g.OK) (hk : sk.IsKey par s) {egcd : Nat → Nat → Nat × Int} (he : EgcdContract egcd) (hodd : par.plaintext.value % 2 = 1)
    (hcount : par.moduli.length ≤ 2 ^ 32) (hf : Fits par database size) {index dim1 dim2 : Nat} (hd2 : 0 < dim2) (hrow : index / perRow par size < dim1 * dim2) (hN : dim1 + dim2 ≤ par.degree) {r : Random}
    (h32 : r.querySeed.length = 32) (hr : IsStream r.query) :
    ∃ (bytes : List Nat) (ct : Ciphertext) (m : par.Msg) (v : IntPoly par.degree), query g egcd sk par size index dim1 dim2 r = Res.ok bytes ∧ Ciphertext.fromBytes g bytes par = Res.ok ct ∧
      ct.Encrypts par s 1 m v ∧ ct.c.length = 2 ∧ v.Bounded (par.plaintext.value * (2 * par.variance + 1)) ∧
      ∀ p < dim1 + dim2, expandMsg (RnsScaler.ceilLog2 (dim1 + dim2)) p m = selector par (index / perRow par size) dim1 dim2 p := by
  obtain ⟨n, hw, -⟩ := build_inv hb h
  obtain ⟨h1, h2, h3, h4⟩ := hf.bits hw
  have h16 : par.degree ≤ 2 ^ 16 := by rw [hw.degree]; exact Nat.pow_le_pow_right (by norm_num) hw.le_16
  have ht := hw.t_pos
  have : NeZero par.plaintext.value := ⟨by omega⟩
  set row := index / perRow par size with hrowdef
  set l := RnsScaler.ceilLog2 (dim1 + dim2) with hl
  obtain ⟨hl1, hl2⟩ := ceilLog2_spec' (m := dim1 + dim2) (by omega)
  have hl64 : l < 64 := lt_of_le_of_lt (hl2 16 (by omega)) (by norm_num)
  obtain ⟨inv, i1, i2, i3⟩ := (C56_inverse he (a := 2 ^ l) (p := par.plaintext.value) (by omega) hf.word).1
    (Nat.Coprime.pow_left l ((Nat.coprime_two_left).2 (Nat.odd_iff.2 hodd)))
  have ha : row / dim2 < dim1 := (Nat.div_lt_iff_lt_mul hd2).2 hrow
  have hc : row % dim2 < dim2 := Nat.mod_lt _ hd2
  set values := ((List.replicate (dim1 + dim2) 0).set (row / dim2) inv).set (dim1 + row % dim2) inv with hvalues
  have hlen : values.length = dim1 + dim2 := by simp [hvalues]
  have hget : ∀ j, values.getD j 0 = if j = row / dim2 ∨ j = dim1 + row % dim2 then inv else 0 := fun j => by
    by_cases hj : j < dim1 + dim2
    · rw [List.getD_eq_getElem _ _ (by omega)]
      simp only [hvalues, List.getElem_set, List.getElem_replicate]
      by_cases e1 : dim1 + row % dim2 = j
      · rw [if_pos e1, if_pos (Or.inr e1.symm)]
      · rw [if_neg e1]
        by_cases e2 : row / dim2 = j
        · rw [if_pos e2, if_pos (Or.inl e2.symm)]
        · rw [if_neg e2, if_neg (by omega)]
    · rw [List.getD_eq_default _ _ (by omega), if_neg (by omega)]
  have hlt : ∀ x ∈ values, x < par.plaintext.value := fun x hx => by
    obtain ⟨j, hj, rfl⟩ := List.getElem_of_mem hx
    rw [← List.getD_eq_getElem _ 0, hget]
    split <;> omega
  obtain ⟨m, m1, -, -, m4⟩ := C35_poly hb h (level := 1) (v := values) (by have := hf.levels; omega) hf.modulus (by omega) hlt
  obtain ⟨pt, p1, p2, -⟩ := m4 (fun x hx => lt_trans (hlt x hx) hf.word) false
  obtain ⟨ct, v, e1, e2, e3, e4, e5, e6⟩ := C37_encrypt hb h hk hg hf.modulus p2 h32 hr
  obtain ⟨bytes, ct', f1, -, f2, f3, f4⟩ := C62_ciphertext hb h hcount e6
  have hlen' : ct'.c.length = ct.c.length := by
    simp only [Ciphertext.beq, Bool.and_eq_true, decide_eq_true_eq] at f3
    exact f3.1.1.2
  refine ⟨bytes, ct', m, v, ?_, f2, e2.of_beq hw f3 f4, hlen'.trans e4, e3, fun p hp => expand_selector hl1 hN hp (fun j => ?_) fun j hj => ?_⟩
  · unfold query
    rw [expansionLevel_eq (by omega), Res.lift_some, Res.ok_bind, numberElements_eq hw hf, Res.lift_some, Res.ok_bind, check_eq (by have := hf.per_pos; omega), Res.lift_some, Res.ok_bind]
    simp only []
    rw [check_eq hl64, Res.lift_some, Res.ok_bind, i1, Res.lift_some, Res.ok_bind, check_eq (Nat.pos_iff_ne_zero.1 hd2), Res.lift_some, Res.ok_bind, setAt_eq (by rw [List.length_replicate]; exact lt_of_lt_of_le ha (Nat.le_add_right _ _)), Res.lift_some, Res.ok_bind,
      setAt_eq (by rw [List.length_set, List.length_replicate]; exact Nat.add_lt_add_left hc _), Res.lift_some, Res.ok_bind, p1, Res.ok_bind, e1, Res.ok_bind, f1, Res.lift_some]
  · rw [m1, hget]
    split
    · rw [show (2 ^ l : ZMod par.plaintext.value) * ((inv : Nat) : ZMod par.plaintext.value) = ((2 ^ l * inv : Nat) : ZMod par.plaintext.value) by push_cast; rfl,
        ← ZMod.natCast_mod, i3, Nat.cast_one]
    · rw [Nat.cast_zero, MulZeroClass.mul_zero]
  · rw [m1, List.getD_eq_default _ _ (by omega), Nat.cast_zero]

/-! ## The evaluation key and the expansion -/

theorem errorBound_of_beq {k k' : KeySwitchingKey} (h : k'.beq k = true) (S e : Nat) : k'.errorBound par S e = k.errorBound par S e := by
  simp only [KeySwitchingKey.beq, Bool.and_eq_true, decide_eq_true_eq] at h
  unfold KeySwitchingKey.errorBound KeySwitchingKey.ratio KeySwitchingKey.digitSum
  rw [h.2, h.1.1.2, h.1.1.1.2, h.1.1.1.1.2, h.1.1.1.1.1.1.1.1.2]

theorem supportsExpansion_congr {k k' : EvaluationKey} (hp : k'.par = k.par) (hl : k'.keyLevel = k.keyLevel) (hg : ∀ x, (k'.gk.lookup x).isSome = (k.gk.lookup x).isSome) (l : Nat) :
    k'.supportsExpansion l = k.supportsExpansion l := by
  unfold EvaluationKey.supportsExpansion
  simp only [hp, hl, hg]

theorem evaluationKey_eq (hb : b.OK) (h : build b st = Res.ok par.toBfvParameters) (hg : g.OK) (hk : sk.IsKey par s) (hcount : par.moduli.length ≤ 31) (hlev : 2 ≤ par.moduli.length) {dim1 dim2 : Nat}
    (hpos : 0 < dim1 + dim2) (hN : dim1 + dim2 ≤ par.degree) {r : Random} (h32 : ∀ x, (r.galoisSeeds x).length = 32) (hr : ∀ x i, IsStream (r.galois x i)) :
    ∃ (k k' : EvaluationKey) (bytes : List Nat), evaluationKey b g sk dim1 dim2 r = Res.ok k ∧ k.toBytes = some bytes ∧ EvaluationKey.fromBytes b g bytes par = Res.ok k' ∧
      k'.IsFor par s 1 0 (2 * par.variance) ∧ k'.ErrorAtMost par (2 * par.variance) (2 * par.variance) (switchError par 1 0) ∧
      k'.supportsExpansion (RnsScaler.ceilLog2 (dim1 + dim2)) = some true := by
  obtain ⟨n, hw, -⟩ := build_inv hb h
  have h16 : par.degree ≤ 2 ^ 16 := by rw [hw.degree]; exact Nat.pow_le_pow_right (by norm_num) hw.le_16
  set l := RnsScaler.ceilLog2 (dim1 + dim2) with hl
  obtain ⟨hl1, hl2⟩ := ceilLog2_spec' (m := dim1 + dim2) (by omega)
  have hlog : l ≤ Nat.log2 par.degree := by
    rw [hw.degree, Nat.log2_two_pow]
    exact hl2 n (hw.degree ▸ hN)
  obtain ⟨bd, bd', k, e1, e2, e3, e4, -, e5, -, -, -, -, e6⟩ := C50_build (i := 1) (j := 0) hb h (by omega) hk hg (by omega) (by omega) [.expansion l] r.galoisSeeds hr
  obtain ⟨bdw, bdw', kw, f1, f2, f3, f4⟩ := C55_evaluation_generated (i := 1) (j := 0) hb h (by omega) hk hg (by omega) (by omega) [.expansion l] h32 hr
  obtain rfl : bd = bdw := Res.ok_inj.1 (e1.symm.trans f1)
  obtain rfl : bd' = bdw' := by rw [e2] at f2; exact Option.some_inj.1 f2
  obtain rfl : k = kw := Res.ok_inj.1 (e3.symm.trans f3)
  obtain ⟨bda, a1, a2⟩ := EvaluationKeyBuilder.newLeveled_eq (sk := sk) (i := 1) (j := 0) hw hk.par_eq (by omega) (by omega)
  obtain rfl : bd = bda := Res.ok_inj.1 (e1.symm.trans a1)
  have hen : bd.enableExpansion l = Res.ok bd' := by
    have h1 : bd.enableExpansion l = Res.ok { bd with expansionLevel := l } := by
      unfold EvaluationKeyBuilder.enableExpansion
      simp only []
      rw [a2.sk_eq, hk.par_eq, if_neg (by omega)]
    unfold EvaluationKeyBuilder.requests at e2
    rw [List.foldlM_cons, EvaluationKeyBuilder.request, h1] at e2
    rw [h1]
    exact congrArg Res.ok (Option.some_inj.1 e2)
  have hlast : lastExpansion par.degree [.expansion l] = l := by simp [lastExpansion, hlog]
  obtain ⟨bytes, k', g1, -, g2, g3, -, g4, -, -, g5, -, g6⟩ := C62_evaluation hb h (by omega) f4
  refine ⟨k, k', bytes, ?_, g1, g2, g6 s 1 0 _ e4, fun x gk hx => ?_, ?_⟩
  · unfold evaluationKey
    rw [expansionLevel_eq (by omega), Res.lift_some, Res.ok_bind, e1, Res.ok_bind, hen, Res.ok_bind, e3]
  · rcases g5 x with ⟨q1, -⟩ | ⟨gk0, gk', q1, q2, -, q3⟩
    · rw [q1] at hx; cases hx
    · obtain rfl : gk' = gk := by rw [q2] at hx; exact Option.some_inj.1 hx
      rw [errorBound_of_beq q3]
      exact e5 (by omega) (2 * par.variance) x gk0 q1
  · rw [supportsExpansion_congr (g3.trans e4.par_eq.symm) g4 fun x => ?_]
    · exact e6 l hlast.ge
    · rcases g5 x with ⟨q1, q2⟩ | ⟨gk0, gk', q1, q2, -, -⟩
      · rw [q1, q2]
      · rw [q1, q2]; rfl

/-- The expanded query. -/
theorem expand_eq (hb : b.OK) (h : build b st = Res.ok par.toBfvParameters) {k : EvaluationKey} (hs : s.Bounded (2 * par.variance)) {dim1 dim2 : Nat}
    (hk : k.IsFor par s 1 0 (2 * par.variance)) (hB : k.ErrorAtMost par (2 * par.variance) (2 * par.variance) (switchError par 1 0)) (hsup : k.supportsExpansion (RnsScaler.ceilLog2 (dim1 + dim2)) = some true)
    (hpos : 0 < dim1 + dim2) (hN : dim1 + dim2 ≤ par.degree) {bytes : List Nat} {ct : Ciphertext} {m : par.Msg} {v : IntPoly par.degree} {row : Nat} (h0 : Ciphertext.fromBytes g bytes par = Res.ok ct)
    (h1 : ct.Encrypts par s 1 m v) (h2 : ct.c.length = 2) (hv : v.Bounded (par.plaintext.value * (2 * par.variance + 1)))
    (hm : ∀ p < dim1 + dim2, expandMsg (RnsScaler.ceilLog2 (dim1 + dim2)) p m = selector par row dim1 dim2 p) :
    ∃ (ct : Nat → Ciphertext) (v : Nat → IntPoly par.degree), expand g k par bytes dim1 dim2 = Res.ok ((List.range (dim1 + dim2)).map ct) ∧ ∀ p < dim1 + dim2,
      (ct p).Encrypts par s 1 (selector par row dim1 dim2 p) (v p) ∧ (ct p).c.length = 2 ∧ (v p).Bounded (expandedNoise par (RnsScaler.ceilLog2 (dim1 + dim2))) := by
  obtain ⟨hl1, hl2⟩ := ceilLog2_spec' (m := dim1 + dim2) (by omega)
  obtain ⟨out, e1, e2, e3⟩ := C44_expand hb h hk hs hB h1 h2 hv (by omega) hN hl1 hl2 hsup
  have : ∀ p, ∃ (r : Ciphertext) (w : IntPoly par.degree), p < dim1 + dim2 → out[p]? = some r ∧ r.Encrypts par s 1 (selector par row dim1 dim2 p) w ∧ r.c.length = 2 ∧
      w.Bounded (expandedNoise par (RnsScaler.ceilLog2 (dim1 + dim2))) := fun p => by
    by_cases hp : p < dim1 + dim2
    · obtain ⟨r, w, a1, a2, a3, a4⟩ := e3 p hp
      exact ⟨r, w, fun _ => ⟨a1, hm p hp ▸ a2, a3, a4⟩⟩
    · exact ⟨ct, v, fun h => absurd h hp⟩
  choose r w hrw using this
  refine ⟨r, w, ?_, fun p hp => (hrw p hp).2⟩
  unfold expand
  rw [h0, Res.ok_bind, e1]
  refine congrArg Res.ok (List.ext_getElem? fun p => ?_)
  by_cases hp : p < dim1 + dim2
  · rw [(hrw p hp).1, List.getElem?_map, List.getElem?_range hp]; rfl
  · rw [List.getElem?_eq_none (by omega), List.getElem?_eq_none (by simp; omega)]

/-! ## The products with the columns -/

theorem stepBy_getElem? {α : Type} {k : Nat} (hk : 0 < k) : ∀ (j : Nat) (l : List α), (stepBy k l)[j]? = l[j * k]?
  | j, [] => by rw [stepBy]; simp
  | 0, x :: l => by rw [stepBy]; simp
  | j + 1, x :: l => by
    rw [stepBy, List.getElem?_cons_succ, stepBy_getElem? hk j, List.getElem?_drop, show (j + 1) * k = (k - 1 + j * k) + 1 by rw [Nat.succ_mul]; omega, List.getElem?_cons_succ]

theorem stepBy_column {encoded : List Plaintext} {dim1 dim2 i : Nat} (hlen : encoded.length = dim1 * dim2) (hi : i < dim2) :
    stepBy dim2 (encoded.drop i) = List.ofFn fun k : Fin dim1 => encoded[i + k.val * dim2]'(by
      rw [hlen]
      calc i + k.val * dim2 < dim2 + k.val * dim2 := by omega
        _ = (k.val + 1) * dim2 := by ring
        _ ≤ _ := Nat.mul_le_mul_right _ k.isLt) := by
  refine List.ext_getElem? fun j => ?_
  rw [stepBy_getElem? (by omega), List.getElem?_drop]
  by_cases hj : j < dim1
  · rw [List.getElem?_eq_getElem (by
      rw [hlen]
      calc i + j * dim2 < dim2 + j * dim2 := by omega
        _ = (j + 1) * dim2 := by ring
        _ ≤ _ := Nat.mul_le_mul_right _ hj), List.getElem?_eq_getElem (by simpa using hj)]
    simp
  · rw [List.getElem?_eq_none (by
      rw [hlen]
      calc dim1 * dim2 ≤ j * dim2 := Nat.mul_le_mul_right _ (by omega)
        _ ≤ _ := by omega), List.getElem?_eq_none (by simp; omega)]

theorem columnProduct_eq (hb : b.OK) (h : build b st = Res.ok par.toBfvParameters) {encoded : List Plaintext} {dim1 dim2 : Nat} (hd1 : 0 < dim1) {M : Nat → par.Msg}
    (hlen : encoded.length = dim1 * dim2) (hM : ∀ k (hk : k < encoded.length), encoded[k].Holds par 1 (M k)) {ct : Nat → Ciphertext} {v : Nat → IntPoly par.degree} {row V : Nat} (hrow : row < dim1 * dim2)
    (hct : ∀ p < dim1 + dim2, (ct p).Encrypts par s 1 (selector par row dim1 dim2 p) (v p) ∧ (ct p).c.length = 2 ∧ (v p).Bounded V) {i : Nat} (hi : i < dim2) :
    ∃ (r : Ciphertext) (w : IntPoly par.degree), columnProduct encoded ((List.range dim1).map ct) dim2 i = Res.ok r ∧ r.Encrypts par s 1 (M (i + row / dim2 * dim2)) w ∧ r.c.length = 2 ∧ r.seed = none ∧
      w.Bounded (dim1 * (par.degree * V * par.plaintext.value)) := by
  obtain ⟨n, hw, -⟩ := build_inv hb h
  have ht := hw.t_pos
  have ha : row / dim2 < dim1 := (Nat.div_lt_iff_lt_mul (by omega)).2 hrow
  obtain ⟨r, e1, e2, e3, e4⟩ := C49_sum hb h hd1 (ct := fun k => ct k.val) (pt := fun k : Fin dim1 => encoded[i + k.val * dim2]'(by
      rw [hlen]
      calc i + k.val * dim2 < dim2 + k.val * dim2 := by omega
        _ = (k.val + 1) * dim2 := by ring
        _ ≤ _ := Nat.mul_le_mul_right _ k.isLt)) (m' := fun k => M (i + k.val * dim2)) (L := 2) (fun k => (hct k.val (by have := k.isLt; omega)).1) (fun k => hM _ _) fun k => (hct k.val (by have := k.isLt; omega)).2.1
  refine ⟨r, _, ?_, ?_, e3, e4, C49_noise (m' := fun k : Fin dim1 => M (i + k.val * dim2)) (by omega) fun k => (hct k.val (by have := k.isLt; omega)).2.2⟩
  · unfold columnProduct
    rw [check_eq (by omega : dim2 ≠ 0), Res.lift_some, Res.ok_bind, stepBy_column hlen hi]
    have : (List.range dim1).map ct = List.ofFn fun k : Fin dim1 => ct k.val := by
      refine List.ext_getElem (by simp) fun j h1 h2 => ?_
      simp
    rw [this]
    exact e1
  · have hsum : ∑ k : Fin dim1, selector par row dim1 dim2 k.val * M (i + k.val * dim2) = M (i + row / dim2 * dim2) := by
      rw [Finset.sum_eq_single ⟨row / dim2, ha⟩]
      · simp only [selector, true_or, if_true, _root_.one_mul]
      · intro k _ hk
        have hk' : k.val ≠ row / dim2 := fun h => hk (Fin.ext h)
        have := k.isLt
        simp only [selector]
        rw [if_neg (by omega), MulZeroClass.zero_mul]
      · exact fun h => absurd (Finset.mem_univ _) h
    rw [hsum] at e2
    exact e2

/-! ## The sum, the switch to the last level, and the answer -/

theorem fold_add (hb : b.OK) (h : build b st = Res.ok par.toBfvParameters) {i B L : Nat} {α : Type} {step : Ciphertext → α → Res Ciphertext} {μ : α → par.Msg} :
    ∀ (l : List α) (acc : Ciphertext) (m : par.Msg) (v : IntPoly par.degree) (V : Nat), acc.Encrypts par s i m v → acc.c.length = L → v.Bounded V →
      (∀ p ∈ l, ∃ c w, (∀ out, step out p = lift (out.add c)) ∧ c.Encrypts par s i (μ p) w ∧ c.c.length = L ∧ w.Bounded B) →
      ∃ r w, l.foldlM step acc = Res.ok r ∧ r.Encrypts par s i (m + (l.map μ).sum) w ∧ r.c.length = L ∧ w.Bounded (V + l.length * B)
  | [], acc, m, v, V, h1, h2, h3, _ => ⟨acc, v, rfl, by simpa using h1, h2, by simpa using h3⟩
  | p :: l, acc, m, v, V, h1, h2, h3, hl => by
    obtain ⟨c, w, e0, e1, e2, e3⟩ := hl p (by simp)
    obtain ⟨r, g1, g2, g3, -⟩ := C38_add hb h h1 e1 (by rw [h2, e2])
    obtain ⟨r', w', k1, k2, k3, k4⟩ := fold_add hb h l r _ _ (V + B) g2 (by rw [g3, h2]) (h3.add e3) fun q hq => hl q (by simp [hq])
    refine ⟨r', w', ?_, ?_, k3, k4.mono ?_⟩
    · rw [List.foldlM_cons, e0, g1, Res.lift_some, Res.ok_bind]; exact k1
    · rw [List.map_cons, List.sum_cons, ← _root_.add_assoc]; exact k2
    · rw [List.length_cons, Nat.succ_mul]; omega

/-- The sum of some ciphertexts, starting from the empty one. -/
theorem fold_add_zero (hb : b.OK) (h : build b st = Res.ok par.toBfvParameters) {i B L : Nat} {α : Type} {step : Ciphertext → α → Res Ciphertext} {μ : α → par.Msg} {l : List α} (hne : l ≠ [])
    (hl : ∀ p ∈ l, ∃ c w, (∀ out, step out p = lift (out.add c)) ∧ c.Encrypts par s i (μ p) w ∧ c.c.length = L ∧ w.Bounded B) :
    ∃ r w, l.foldlM step (Ciphertext.zero par) = Res.ok r ∧ r.Encrypts par s i (l.map μ).sum w ∧ r.c.length = L ∧ w.Bounded (l.length * B) := by
  obtain ⟨p, l, rfl⟩ := List.exists_cons_of_ne_nil hne
  obtain ⟨c, w, e0, e1, e2, e3⟩ := hl p (by simp)
  obtain ⟨r, w', k1, k2, k3, k4⟩ := fold_add hb h l c _ _ B e1 e2 e3 fun q hq => hl q (by simp [hq])
  refine ⟨r, w', ?_, by rw [List.map_cons, List.sum_cons]; exact k2, k3, k4.mono (by rw [List.length_cons, Nat.succ_mul]; omega)⟩
  rw [List.foldlM_cons, e0]
  have hz : (Ciphertext.zero par).add c = some c := by simp [Ciphertext.zero, Ciphertext.add, e1.par_eq, ptrEq_self, check]
  rw [hz, Res.lift_some, Res.ok_bind]
  exact k1

theorem switch_eq (hb : b.OK) (h : build b st = Res.ok par.toBfvParameters) (hs : s.Bounded (2 * par.variance)) (hlev : 3 ≤ par.moduli.length) {ct : Ciphertext} {m : par.Msg} {v : IntPoly par.degree} {V : Nat}
    (h1 : ct.Encrypts par s 1 m v) (h2 : ct.c.length = 2) (hv : v.Bounded V) :
    ∃ (r : Ciphertext) (w : IntPoly par.degree), (do ct.switchToLevel (← lift ct.par.maxLevel)) = Res.ok r ∧ r.Encrypts par s (par.moduli.length - 1) m w ∧ r.c.length = 2 ∧ r.seed = none ∧
      w.Bounded (switchedNoise par V) := by
  obtain ⟨n, hw, -⟩ := build_inv hb h
  obtain ⟨r, w, e1, e2, e3, e4⟩ := C46_switch_to_level hb h h1 (target := par.moduli.length - 1) (by omega) (by omega) hs hv
  have hp : ct.par = par := h1.par_eq
  have hlvl : ct.level = 1 := h1.level_eq
  have hmax : ct.par.maxLevel = some (par.moduli.length - 1) := by
    rw [hp]
    unfold BfvParameters.maxLevel
    rw [hw.length, subU_eq (by omega)]
  refine ⟨r, w, by rw [hmax, Res.lift_some, Res.ok_bind, e1], e2, e3.trans h2, ?_, fun j => ?_⟩
  · obtain ⟨r', w', f1, -, -, f2, -⟩ := Ciphertext.switchLoop_eq hw hs (par.moduli.length - 1 - 1) h1 (by omega)
    have : ct.switchToLevel (par.moduli.length - 1) = ct.switchLoop (par.moduli.length - 1 - 1) := by
      unfold Ciphertext.switchToLevel
      rw [hmax, Res.lift_some, Res.ok_bind, hlvl, if_neg (by omega), if_neg (by omega)]
    rw [this, f1] at e1
    rw [← Res.ok_inj.1 e1, f2, if_neg (by omega)]
  · have h4 := e4 j
    rw [h2] at h4
    obtain ⟨l, hl⟩ := AtLevel.ofLt hw (i := 1) (by omega)
    obtain ⟨l', hl'⟩ := AtLevel.ofLt hw (i := par.moduli.length - 1) (by omega)
    have hle : par.modulusAt (par.moduli.length - 1) ≤ par.modulusAt 1 := by
      obtain ⟨h5, h6, -⟩ := modulusAt_ratio hw hl' hl (by omega)
      rw [h5]; exact Nat.le_mul_of_pos_left _ h6
    have hQ : 0 < par.modulusAt 1 := hl.pos
    unfold switchedNoise
    simp only []
    rw [Int.abs_eq_natAbs] at h4 ⊢
    have : (w j).natAbs ≤ (par.modulusAt (par.moduli.length - 1) * V + (par.modulusAt 1 - par.modulusAt (par.moduli.length - 1)) * (par.plaintext.value * geom (par.degree * (2 * par.variance)) 2)) / par.modulusAt 1 := by
      rw [Nat.le_div_iff_mul_le hQ, Nat.mul_comm]
      zify [hle]
      rw [Int.abs_eq_natAbs]
      exact h4
    exact_mod_cast this

theorem HoldsRow.coeffs_lt {i : Nat} {m : par.Msg} (hm : HoldsRow par database size i m) : ∀ x ∈ msgCoeffs m, x < 2 ^ Nat.log2 par.plaintext.value := by
  obtain ⟨bytes, values, -, -, h3, h4, h5, -⟩ := hm
  intro x hx
  rw [h5, padTo_append h4] at hx
  rcases List.mem_append.1 hx with hx | hx
  · exact h3.1 x hx
  · rw [List.eq_of_mem_replicate hx]; positivity

/-- The bytes of the message of a row. -/
theorem HoldsRow.bytes_eq (hw : ParWF b n par.toBfvParameters) (hf : Fits par database size) {index : Nat} (hi : index < database.length) {m : par.Msg}
    (hm : HoldsRow par database size (index / perRow par size) m) :
    ∃ bytes, transcodeToBytes (msgCoeffs m) (Nat.log2 par.plaintext.value) = some bytes ∧ (index % perRow par size + 1) * size ≤ bytes.length ∧
      (bytes.drop (index % perRow par size * size)).take size = database[index] ∧ Contains par m (index % perRow par size * size) database[index] := by
  obtain ⟨h1, h2, h3, h4⟩ := hf.bits hw
  have hlt := hm.coeffs_lt
  obtain ⟨bytes, values, e1, e2, e3, e4, e5, e6⟩ := hm
  have hlen : (msgCoeffs m).length = par.degree := by simp [msgCoeffs]
  have hmod : index % perRow par size < perRow par size := Nat.mod_lt _ hf.per_pos
  obtain ⟨out, f1, f2⟩ := transcodeToBytes_eq (a := msgCoeffs m) h1 h2 hlt (by rw [hlen, Nat.mul_comm]; omega)
  have hback : out = bytes ++ List.replicate (out.length - bytes.length) 0 := by
    refine IsRechunk.back_pad (z := par.degree - values.length) (by norm_num) h1 e1 e3 ?_
    rw [← padTo_append e4, ← e5]
    exact f2
  have hsl := e6 _ hmod database[index] (by rw [Nat.mod_add_div', List.getElem?_eq_getElem hi])
  have hle : (index % perRow par size + 1) * size ≤ bytes.length := by rw [e2]; exact Nat.mul_le_mul_right _ hmod
  have hslice : (out.drop (index % perRow par size * size)).take size = database[index] := by
    rw [Nat.succ_mul] at hle
    rw [hback, List.drop_append_of_le_length (by omega), List.take_append_of_le_length (by rw [List.length_drop]; omega), hsl]
  refine ⟨out, f1, hle.trans (by rw [hback]; simp), hslice, hlt, ?_⟩
  have hel := hf.elements _ (List.getElem_mem hi)
  rw [hel.1, ← f2.2.2, show (2 ^ 8 : Nat) = 256 by norm_num, Nat.ofDigits_div_pow_eq_ofDigits_drop _ (by norm_num) _ (fun x hx => by have := f2.1 x hx; omega),
    Nat.ofDigits_mod_pow_eq_ofDigits_take _ (by norm_num) _ (fun x hx => by have := f2.1 x (List.mem_of_mem_drop hx); omega), hslice]

/-! ## MulPIR -/

theorem relinKey_eq (hb : b.OK) (h : build b st = Res.ok par.toBfvParameters) (hg : g.OK) (hk : sk.IsKey par s) (hcount : par.moduli.length ≤ 31) (hlev : 3 ≤ par.moduli.length) {seed : Seed}
    (h32 : seed.length = 32) {rngs : Nat → Nat → Nat} (hr : ∀ i, IsStream (rngs i)) :
    ∃ (k k' : RelinearizationKey) (bytes : List Nat), RelinearizationKey.newLeveled b g sk 1 1 seed rngs = Res.ok k ∧ k.toBytes = some bytes ∧ RelinearizationKey.fromBytes g bytes par = Res.ok k' ∧
      k'.IsFor par s 1 1 (2 * par.variance) ∧ k'.ksk.errorBound par (2 * par.variance) (2 * par.variance) = switchError par 1 1 := by
  obtain ⟨k, e1, e2, e3⟩ := (C41_new hb h (by omega) hk hg seed hr (i := 1) (j := 1)).1 (by omega) (le_refl _) (by omega)
  obtain ⟨kw, f1, f2⟩ := C55_relin_generated hb h (by omega) hk hg h32 hr (i := 1) (j := 1) (by omega) (le_refl _) (by omega)
  obtain rfl : k = kw := Res.ok_inj.1 (e1.symm.trans f1)
  obtain ⟨bytes, k', g1, -, g2, g3, -, -, g4⟩ := C62_relin hb h (by omega) f2
  refine ⟨k, k', bytes, e1, g1, g2, g4 s 1 1 _ e2, ?_⟩
  rw [errorBound_of_beq g3]
  unfold KeySwitchingKey.errorBound KeySwitchingKey.ratio switchError
  rw [e3, e2.level, e2.keyLevel]

/-- The response of the server is a ciphertext that encrypts the row of the database asked for, with a bounded noise. -/
theorem mulPir_response_eq (hb : b.OK) (h : build b st = Res.ok par.toBfvParameters) (hcount : par.moduli.length ≤ 31) (hsum : par.moduli.sum ≤ 2 ^ 65) (hlev : 3 ≤ par.moduli.length)
    (hs : s.Bounded (2 * par.variance)) {dim1 dim2 row : Nat} (hd1 : 0 < dim1) (hd2 : 0 < dim2) (hrow : row < dim1 * dim2) {encoded : List Plaintext} {M : Nat → par.Msg} (hlen : encoded.length = dim1 * dim2)
    (hM : ∀ k (hk : k < encoded.length), encoded[k].Holds par 1 (M k)) {ek : EvaluationKey} {rk : RelinearizationKey} {bytes : List Nat} {ct : Nat → Ciphertext} {v : Nat → IntPoly par.degree}
    (hex : expand g ek par bytes dim1 dim2 = Res.ok ((List.range (dim1 + dim2)).map ct)) (hct : ∀ p < dim1 + dim2, (ct p).Encrypts par s 1 (selector par row dim1 dim2 p) (v p) ∧ (ct p).c.length = 2 ∧
      (v p).Bounded (expandedNoise par (RnsScaler.ceilLog2 (dim1 + dim2))))
    (hrk : rk.IsFor par s 1 1 (2 * par.variance)) (hrkB : rk.ksk.errorBound par (2 * par.variance) (2 * par.variance) = switchError par 1 1) :
    ∃ (response : List Nat) (r : Ciphertext) (w : IntPoly par.degree), MulPir.response g ek rk par encoded dim1 dim2 bytes = Res.ok response ∧ Ciphertext.fromBytes g response par = Res.ok r ∧
      r.Encrypts par s (par.moduli.length - 1) (M row) w ∧ r.c.length = 2 ∧ w.Bounded (mulPirNoise par dim1 dim2) := by
  obtain ⟨n, hw, -⟩ := build_inv hb h
  set l := RnsScaler.ceilLog2 (dim1 + dim2) with hl
  have hsl1 : slice ((List.range (dim1 + dim2)).map ct) 0 dim1 = some ((List.range dim1).map ct) := by
    unfold slice
    rw [check_eq (by simp)]
    refine congrArg some ?_
    rw [List.drop_zero, Nat.sub_zero, ← List.map_take, List.take_range, Nat.min_eq_left (by omega)]
  have hsl2 : slice ((List.range (dim1 + dim2)).map ct) dim1 ((List.range (dim1 + dim2)).map ct).length = some ((List.range dim2).map fun i => ct (dim1 + i)) := by
    unfold slice
    rw [check_eq (by simp)]
    refine congrArg some (List.ext_getElem (by simp) fun i h1 h2 => ?_)
    simp
  have hzip : ((List.range dim2).map fun i => ct (dim1 + i)).zipIdx = (List.range dim2).map fun i => (ct (dim1 + i), i) := by
    refine List.ext_getElem (by simp) fun i h1 h2 => ?_
    simp
  obtain ⟨out, w, o1, o2, o3, o4⟩ := fold_add_zero (s := s) (i := 1) (L := 3) (B := mulNoise par 1 (2 * par.variance) 2 2 (columnNoise par l dim1) (expandedNoise par l)) (l := (List.range dim2).map fun i => (ct (dim1 + i), i))
    (μ := fun p => if p.2 = row % dim2 then M (p.2 + row / dim2 * dim2) else 0) hb h
    (step := fun out p => do
      let product ← lift ((← columnProduct encoded ((List.range dim1).map ct) dim2 p.2).mul p.1)
      lift (out.add product)) (by simp; omega) (by
    intro p hp
    obtain ⟨i, hi, rfl⟩ := List.mem_map.1 hp
    rw [List.mem_range] at hi
    obtain ⟨c, w, c1, c2, c3, -, c4⟩ := columnProduct_eq hb h hd1 hlen hM hrow hct hi
    obtain ⟨d1, d2, d3⟩ := hct (dim1 + i) (by omega)
    obtain ⟨r, w', e1, e2, e3, e4⟩ := C39_bound hb h hcount hsum c2 d1 (by rw [c3]; norm_num) hs c4 d3
    refine ⟨r, w', fun out => ?_, ?_, ?_, ?_⟩
    · rw [c1, Res.ok_bind, e1, Res.lift_some, Res.ok_bind]
    · have : M (i + row / dim2 * dim2) * selector par row dim1 dim2 (dim1 + i) = if i = row % dim2 then M (i + row / dim2 * dim2) else 0 := by
        have ha : row / dim2 < dim1 := (Nat.div_lt_iff_lt_mul hd2).2 hrow
        unfold selector
        by_cases hi' : i = row % dim2
        · rw [if_pos (Or.inr (by rw [hi'])), if_pos hi', _root_.mul_one]
        · rw [if_neg (by omega), if_neg hi', MulZeroClass.mul_zero]
      rw [this] at e2
      exact e2
    · rw [e3, c3, d2]
    · rw [c3, d2] at e4
      exact e4)
  have hmsg : (((List.range dim2).map fun i => (ct (dim1 + i), i)).map fun p : Ciphertext × Nat => if p.2 = row % dim2 then M (p.2 + row / dim2 * dim2) else 0).sum = M row := by
    rw [List.map_map]
    have : ((fun p : Ciphertext × Nat => if p.2 = row % dim2 then M (p.2 + row / dim2 * dim2) else 0) ∘ fun i => (ct (dim1 + i), i)) = fun i => if i = row % dim2 then M row else 0 := by
      funext i
      simp only [Function.comp]
      split
      · rename_i hi; rw [hi, Nat.mod_add_div']
      · rfl
    rw [this, ← List.sum_toFinset _ (List.nodup_range), List.toFinset_range, Finset.sum_ite_eq', if_pos (Finset.mem_range.2 (Nat.mod_lt _ hd2))]
  rw [hmsg] at o2
  obtain ⟨r1, W, p1, p2, p3, p4⟩ := C41_relinearize hb h hrk o2 o3
  have hb1 := o4.add ((p4 _ hs).C_mul (par.plaintext.value : Int))
  rw [hrkB, Int.natAbs_natCast, List.length_map, List.length_range] at hb1
  obtain ⟨r2, w2, q1, q2, q3, q4, q5⟩ := switch_eq hb h hs hlev p2 p3 hb1
  obtain ⟨response, r3, f1, -, f2, f3, f4⟩ := C62_ciphertext hb h (by omega) (C47_wellFormed (g := g) hb h q2 q4)
  have hlen' : r3.c.length = r2.c.length := by
    simp only [Ciphertext.beq, Bool.and_eq_true, decide_eq_true_eq] at f3
    exact f3.1.1.2
  refine ⟨response, r3, w2, ?_, f2, q2.of_beq hw f3 f4, hlen'.trans q3, q5⟩
  unfold MulPir.response
  rw [hex, Res.ok_bind, hsl1, Res.lift_some, Res.ok_bind, hsl2, Res.lift_some, Res.ok_bind, hzip, o1, Res.ok_bind, p1, Res.ok_bind]
  have := q1
  cases hmx : r1.par.maxLevel with
  | none => rw [hmx] at this; exact absurd this (by simp [lift]; exact Res.panic_ne_ok)
  | some x =>
    rw [hmx, Res.lift_some, Res.ok_bind] at this
    rw [Res.lift_some, Res.ok_bind, this, Res.ok_bind, f1, Res.lift_some]

theorem mulPir_answer_eq (hb : b.OK) (h : build b st = Res.ok par.toBfvParameters) (hk : sk.IsKey par s) (hcount : par.moduli.length ≤ 31) (hsum : par.moduli.sum ≤ 2 ^ 65) (hf : Fits par database size)
    (hlast : 2 * par.plaintext.value ≤ par.modulusAt (par.moduli.length - 1)) {index : Nat} (hi : index < database.length) {bytes : List Nat} {r : Ciphertext} {m : par.Msg} {w : IntPoly par.degree}
    (h1 : Ciphertext.fromBytes g bytes par = Res.ok r) (h2 : r.Encrypts par s (par.moduli.length - 1) m w) (hm : HoldsRow par database size (index / perRow par size) m)
    (hw' : w.Small (par.modulusAt (par.moduli.length - 1))) : MulPir.answer b g sk par size index bytes = Res.ok database[index] := by
  obtain ⟨n, hw, -⟩ := build_inv hb h
  have hone : par.moduli.length - (par.moduli.length - 1) = 1 := by have := hf.levels; omega
  have hrel : par.toBfvParameters.Reliable (par.moduli.length - 1) := by
    refine ⟨hcount, hsum, hlast, fun _ q hq => ?_⟩
    unfold BfvParameters.modulusAt at hlast
    rw [hone] at hlast
    cases hmod : par.moduli with
    | nil => rw [hmod] at hq; cases hq
    | cons q0 rest =>
      rw [hmod] at hq hlast
      obtain rfl : q0 = q := by simpa using hq
      simpa using hlast
  obtain ⟨pt, d1, d2, d3⟩ := C37_decrypt hb h hrel hk h2 hw'
  obtain ⟨noise, -, n1, -⟩ := C59_measure_noise hb h hrel hk h2 hw'
  have ht := hw.t_pos
  have : NeZero par.plaintext.value := ⟨by omega⟩
  have hdec := (C35_decode hb h (lv := 2) d2 (Or.inl d3)).2
  rw [if_pos fun x hx => lt_trans (msgCoeffs_lt m x hx) hf.word] at hdec
  obtain ⟨out, t1, t2, t3, -⟩ := hm.bytes_eq hw hf hi
  unfold MulPir.answer
  rw [h1, Res.ok_bind, d1, Res.ok_bind, hdec, Res.ok_bind, t1, Res.lift_some, Res.ok_bind, numberElements_eq hw hf, Res.lift_some, Res.ok_bind, check_eq (Nat.pos_iff_ne_zero.1 hf.per_pos), Res.lift_some, Res.ok_bind]
  simp only []
  rw [n1]
  have hrun : lift (ExceptT.run (Res.ok noise)) = Res.ok (Except.ok noise) := rfl
  rw [hrun, Res.ok_bind]
  unfold slice
  rw [check_eq ⟨Nat.mul_le_mul_right _ (Nat.le_succ _), t2⟩, show (index % perRow par size + 1) * size - index % perRow par size * size = size by rw [Nat.succ_mul]; omega, ← t3]
  rfl

/-- The exchange between client and server: every step succeeds, and the response encrypts the row. -/
theorem mulPir_eq (hb : b.OK) (h : build b st = Res.ok par.toBfvParameters) (hg : g.OK) {egcd : Nat → Nat → Nat × Int} (he : EgcdContract egcd) (hodd : par.plaintext.value % 2 = 1) (hcount : par.moduli.length ≤ 31)
    (hsum : par.moduli.sum ≤ 2 ^ 65) (hlev : 3 ≤ par.moduli.length) (hf : Fits par database size) (hN : dimension1 par database.length size + dimension2 par database.length size ≤ par.degree)
    {index : Nat} (hi : index < database.length) {r : Random} (hr : r.OK) :
    ∃ (encoded : List Plaintext) (sk : SecretKey) (s : IntPoly par.degree) (ek ek' : EvaluationKey) (rk rk' : RelinearizationKey) (ekBytes rkBytes question response : List Nat) (ct : Ciphertext) (m : par.Msg)
      (w : IntPoly par.degree),
      encodeDatabase database par 1 = Res.ok (encoded, dimension1 par database.length size, dimension2 par database.length size) ∧
      SecretKey.random par r.secret = some sk ∧ sk.IsKey par s ∧
      evaluationKey b g sk (dimension1 par database.length size) (dimension2 par database.length size) r = Res.ok ek ∧ ek.toBytes = some ekBytes ∧ EvaluationKey.fromBytes b g ekBytes par = Res.ok ek' ∧
      RelinearizationKey.newLeveled b g sk 1 1 r.relinSeed r.relin = Res.ok rk ∧ rk.toBytes = some rkBytes ∧ RelinearizationKey.fromBytes g rkBytes par = Res.ok rk' ∧
      query g egcd sk par size index (dimension1 par database.length size) (dimension2 par database.length size) r = Res.ok question ∧
      MulPir.response g ek' rk' par encoded (dimension1 par database.length size) (dimension2 par database.length size) question = Res.ok response ∧
      Ciphertext.fromBytes g response par = Res.ok ct ∧ ct.Encrypts par s (par.moduli.length - 1) m w ∧ ct.c.length = 2 ∧ HoldsRow par database size (index / perRow par size) m ∧
      w.Bounded (mulPirNoise par (dimension1 par database.length size) (dimension2 par database.length size)) := by
  obtain ⟨encoded, M, e1, e2, e3, e4⟩ := encodeDatabase_eq hb h hf
  obtain ⟨sk, s, s1, s2, s3⟩ := C37_secret_key hb h hr.secret
  have hd1 := hf.dim1_pos
  have hd2 := hf.dim2_pos
  have hrow := hf.row_lt hi
  have hrow' := lt_of_lt_of_le hrow hf.rows_le
  obtain ⟨ek, ek', ekBytes, k1, k2, k3, k4, k5, k6⟩ := evaluationKey_eq hb h hg s2 hcount (by omega) (Nat.add_pos_left hd1 _) hN hr.galoisSeeds hr.galois
  obtain ⟨rk, rk', rkBytes, l1, l2, l3, l4, l5⟩ := relinKey_eq hb h hg s2 hcount hlev hr.relinSeed hr.relin
  obtain ⟨question, ct, m, v, q1, q2, q3, q4, q5, q6⟩ := query_eq hb h hg s2 he hodd (by omega) hf hd2 hrow' hN hr.querySeed hr.query
  obtain ⟨cts, vs, x1, x2⟩ := expand_eq hb h s3 k4 k5 k6 (Nat.add_pos_left hd1 _) hN q2 q3 q4 q5 q6
  obtain ⟨response, c, w, r1, r2, r3, r4, r5⟩ := mulPir_response_eq hb h hcount hsum hlev s3 hd1 hd2 hrow' e2 e3 x1 x2 l4 l5
  exact ⟨encoded, sk, s, ek, ek', rk, rk', ekBytes, rkBytes, question, response, c, _, w, e1, s1, s2, k1, k2, k3, l1, l2, l3, q1, r1, r2, r3, r4, e4 _ hrow, r5⟩

theorem ceilLog2_mono {a c : Nat} (h : a ≤ c) : RnsScaler.ceilLog2 a ≤ RnsScaler.ceilLog2 c := by
  unfold RnsScaler.ceilLog2
  by_cases ha : a ≤ 1
  · rw [if_pos ha]; exact Nat.zero_le _
  · rw [if_neg ha, if_neg (by omega), Nat.log2_eq_log_two, Nat.log2_eq_log_two]
    exact Nat.succ_le_succ (Nat.log_mono_right (by omega))

theorem mulNoise_mono (par : Par) (i S n n' : Nat) {V V' W W' : Nat} (h : V ≤ W) (h' : V' ≤ W') : mulNoise par i S n n' V V' ≤ mulNoise par i S n n' W W' := by
  unfold mulNoise mulHeight
  gcongr

theorem mulPirNoise_mono (par : Par) {d1 d2 e1 e2 : Nat} (h1 : d1 ≤ e1) (h2 : d2 ≤ e2) : mulPirNoise par d1 d2 ≤ mulPirNoise par e1 e2 := by
  have hl : RnsScaler.ceilLog2 (d1 + d2) ≤ RnsScaler.ceilLog2 (e1 + e2) := ceilLog2_mono (by omega)
  have hx : expandedNoise par (RnsScaler.ceilLog2 (d1 + d2)) ≤ expandedNoise par (RnsScaler.ceilLog2 (e1 + e2)) := by
    unfold expandedNoise
    gcongr <;> norm_num
  unfold mulPirNoise switchedNoise mulPirSum
  simp only []
  gcongr
  refine mulNoise_mono _ _ _ _ _ ?_ hx
  unfold columnNoise
  gcongr

theorem ceilSqrt_le {n k : Nat} (h : n ≤ k * k) : ceilSqrt n ≤ k := by
  unfold ceilSqrt
  have h1 := Nat.sqrt_le n
  split
  · exact Nat.mul_self_le_mul_self_iff.1 (by omega)
  · rename_i hne
    exact Nat.mul_self_lt_mul_self_iff.1 (by omega)

theorem le_ceilSqrt (n : Nat) : n ≤ ceilSqrt n * ceilSqrt n := by
  unfold ceilSqrt
  split
  · omega
  · exact le_of_lt (Nat.lt_succ_sqrt n)

theorem dims_le {par : Par} {count size k : Nat} (h : rowCount par count size ≤ k * k) (hpos : 0 < rowCount par count size) : dimension1 par count size ≤ k ∧ dimension2 par count size ≤ k := by
  have h1 := ceilSqrt_le h
  refine ⟨h1, ?_⟩
  unfold dimension2 dimension1
  have h2 := le_ceilSqrt (rowCount par count size)
  have h3 := ceilSqrt_pos hpos
  refine le_trans ?_ h1
  rw [← Nat.lt_succ_iff, Nat.div_lt_iff_lt_mul h3, Nat.succ_mul]
  omega

end Fhe.Pir
