import Verif.Props.BfvKeys
import Verif.Lemmas.BfvEvalBuild
import Verif.Lemmas.Trace
/-!
# Properties C42, C43, C44 and C50: evaluation keys
-/
namespace Fhe.Props
open Nega Poly ParamsBuilder Ciphertext

variable {b : Build} {par : Par} {st : ParamsBuilder} {s : IntPoly par.degree} {sk : SecretKey} {i j e S B V : Nat} {ct : Ciphertext} {m : par.Msg} {v : IntPoly par.degree}
  {k : EvaluationKey}

/-! ## C50: what an evaluation key supports -/

/-- C50: a builder can be made for ciphertexts of a level that exists, with keys at that level or above it; any other combination gives an
error. -/
theorem C50_new (hb : b.OK) (h : build b st = Res.ok par.toBfvParameters) (hk : sk.par = par) :
    (∃ bd, EvaluationKeyBuilder.new b sk = Res.ok bd) ∧ (i < par.moduli.length → j ≤ i → ∃ bd, EvaluationKeyBuilder.newLeveled b sk i j = Res.ok bd) ∧
    (par.moduli.length ≤ i → EvaluationKeyBuilder.newLeveled b sk i j = Res.err (.invalidLevel i 0 (par.moduli.length - 1))) ∧
    (i < par.moduli.length → i < j → EvaluationKeyBuilder.newLeveled b sk i j = Res.err (.invalidLevel j 0 i)) := by
  obtain ⟨n, hw, -⟩ := build_inv hb h
  have hpos := List.length_pos_of_ne_nil hw.ne_nil
  refine ⟨?_, fun hi hij => ?_, fun hi => ?_, fun hi hij => ?_⟩
  · obtain ⟨bd, e1, -⟩ := EvaluationKeyBuilder.new_eq (sk := sk) hw hk
    exact ⟨bd, e1⟩
  · obtain ⟨bd, e1, -⟩ := EvaluationKeyBuilder.newLeveled_eq (sk := sk) hw hk hi hij
    exact ⟨bd, e1⟩
  · unfold EvaluationKeyBuilder.newLeveled BfvParameters.maxLevel
    rw [hk, hw.length, subU_eq (by omega), Res.lift_some, Res.ok_bind, if_pos (by omega)]
  · unfold EvaluationKeyBuilder.newLeveled BfvParameters.maxLevel
    rw [hk, hw.length, subU_eq (by omega), Res.lift_some, Res.ok_bind, if_neg (by omega), if_pos (by omega)]

/-- C50: after any sequence of requests to the builder, of which those out of range are refused, the key can be built; it belongs to the
secret, holds the Galois keys that the requests call for and no others, and supports what was asked for. -/
theorem C50_build (hb : b.OK) (h : build b st = Res.ok par.toBfvParameters) (h64 : par.moduli.length ≤ 64) (hk : sk.IsKey par s) {g : Prg} (hg : g.OK) (hi : i < par.moduli.length) (hij : j ≤ i)
    (rs : List EvaluationRequest) (seeds : Nat → Seed) {rngs : Nat → Nat → Nat → Nat} (hr : ∀ x i, IsStream (rngs x i)) :
    ∃ bd bd' k, EvaluationKeyBuilder.newLeveled b sk i j = Res.ok bd ∧ bd.requests rs = some bd' ∧ bd'.build b g seeds rngs = Res.ok k ∧ k.IsFor par s i j (2 * par.variance) ∧
      (∀ x, (k.gk.lookup x).isSome = true ↔ Requested par.degree rs x) ∧
      (j + 1 < par.moduli.length → ∀ S, k.ErrorAtMost par S (2 * par.variance)
        ((2 * (par.degree * (par.moduli.take (par.moduli.length - i)).sum * (2 * par.variance)) + (i - j) * (par.modulusAt j / par.modulusAt i) * (1 + par.degree * S)) / (2 * (par.modulusAt j / par.modulusAt i)))) ∧
      (k.supportsRowRotation = true ↔ EvaluationRequest.rows ∈ rs ∨ EvaluationRequest.innerSum ∈ rs) ∧
      (∀ t, k.supportsColumnRotationBy t = true ↔ 1 ≤ t ∧ t < par.degree / 2 ∧ Requested par.degree rs (3 ^ t % (2 * par.degree))) ∧
      (∀ t, EvaluationRequest.columns t ∈ rs → 1 ≤ t → t < par.degree / 2 → k.supportsColumnRotationBy t = true) ∧
      (EvaluationRequest.innerSum ∈ rs → k.supportsInnerSum = some true) ∧
      (∀ l ≤ lastExpansion par.degree rs, k.supportsExpansion l = some true) := by
  obtain ⟨n, hw, -⟩ := build_inv hb h
  have hN := hw.degree
  have hn := hw.three_le
  have h16 := hw.le_16
  obtain ⟨bd, e1, e2⟩ := EvaluationKeyBuilder.newLeveled_eq (sk := sk) hw hk.par_eq hi hij
  obtain ⟨bd', e3, e4⟩ := e2.requests hw hk.par_eq (rs' := rs)
  rw [List.nil_append] at e4
  obtain ⟨k, e5, e6, e7, e8, -⟩ := EvaluationKeyBuilder.build_eq hw h64 hk hg hi hij e4 seeds hr
  have h8 : 2 ^ 3 ∣ par.degree := by rw [hN]; exact pow_dvd_pow 2 hn
  have hpos : 0 < par.degree := by rw [hN]; positivity
  have hcol : ∀ t, k.supportsColumnRotationBy t = true ↔ 1 ≤ t ∧ t < par.degree / 2 ∧ Requested par.degree rs (3 ^ t % (2 * par.degree)) := fun t => by
    unfold EvaluationKey.supportsColumnRotationBy
    rw [← e7]
    cases hx : k.rot.lookup t with
    | none =>
      simp only []
      refine ⟨fun h => by simp at h, fun h => ?_⟩
      rw [(e6.rot t _).2 ⟨h.1, h.2.1, rfl⟩] at hx
      simp at hx
    | some x =>
      obtain ⟨h1, h2, h3⟩ := (e6.rot _ _).1 hx
      simp only []
      rw [h3]
      exact ⟨fun h => ⟨h1, h2, h⟩, fun h => h.2.2⟩
  refine ⟨bd, bd', k, e1, e3, e5, e6, e7, fun hj S x gk hx => ?_, ?_, hcol, fun t ht h1 h2 => (hcol t).2 ⟨h1, h2, Or.inl ⟨t, ht, h1, h2, rfl⟩⟩, fun hin => ?_, fun l hl => ?_⟩
  · obtain ⟨-, -, -, hlog⟩ := e8 x gk hx
    have hgk := e6.gk x gk hx
    have hd := KeySwitchingKey.IsFor.digitSum_eq hw hgk.switches (hlog.2 hj)
    unfold KeySwitchingKey.errorBound KeySwitchingKey.ratio
    rw [hd, hgk.switches.level, hgk.switches.keyLevel]
  · have hrow : k.supportsRowRotation = true ↔ Requested par.degree rs (2 * par.degree - 1) := by
      unfold EvaluationKey.supportsRowRotation
      rw [e6.par_eq, mul_comm, e7]
    rw [hrow]
    have hm8 : ∀ t, 3 ^ t % (2 * par.degree) ≠ 2 * par.degree - 1 := fun t ht => by
      have h1 : 3 ^ t % (2 * par.degree) % 8 = 3 ^ t % 8 := Nat.mod_mod_of_dvd _ (h8.trans (Dvd.intro_left 2 rfl))
      have h2 : 3 ^ t % 8 = 1 ∨ 3 ^ t % 8 = 3 := by
        clear ht h1
        induction t with
        | zero => left; rfl
        | succ t ih => rw [pow_succ]; omega
      obtain ⟨c, hc⟩ := h8
      omega
    constructor
    · rintro (⟨t, -, -, -, ht⟩ | h' | ⟨-, a, -, ht⟩ | ⟨l, -, hl⟩)
      · exact absurd ht.symm (hm8 t)
      · exact h'.1
      · exact absurd ht.symm (hm8 _)
      · have := Nat.div_le_self par.degree (2 ^ l)
        obtain ⟨c, hc⟩ := h8
        omega
    · exact fun h' => Or.inr (Or.inl ⟨h', rfl⟩)
  · obtain ⟨q, hq, hq'⟩ := EvaluationKey.supportsInnerSum_eq hw e6
    rw [hq, hq'.2 ⟨(e7 _).2 (Or.inr (Or.inl ⟨Or.inr hin, rfl⟩)), fun a ha => (e7 _).2 (Or.inr (Or.inr (Or.inl ⟨hin, a, ha, rfl⟩)))⟩]
  · have hle := EvaluationKeyBuilder.lastExpansion_le (N := par.degree) rs
    rw [EvaluationKey.log2_degree hw] at hle
    obtain ⟨q, hq, hq'⟩ := EvaluationKey.supportsExpansion_eq hw e6 (level := l) (by omega)
    rw [hq, hq'.2 ⟨by omega, fun a ha => (e7 _).2 (Or.inr (Or.inr (Or.inr ⟨a, by omega, rfl⟩)))⟩]

/-- The ciphertexts an evaluation key of level `i` accepts. -/
def Accepted (par : Par) (i : Nat) (ct : Ciphertext) : Prop := ct.validateFor par = Res.ok () ∧ ct.c.length = 2 ∧ ct.level = i

/-- C50, C48: on ciphertexts of valid polynomials, the operations of an evaluation key never panic.  They all return an error if the ciphertext
does not belong to the parameters, or has other than two parts, or is at another level than the key is for.  Otherwise they succeed if the key
says that it supports them, and return the error `unsupported` if it does not. -/
theorem C50_operations (hb : b.OK) (h : build b st = Res.ok par.toBfvParameters) (hk : k.IsFor par s i j e) (hpar : ct.par.ptrEq par = true → ct.par = par) (hv : ∀ p ∈ ct.c, p.Valid) :
    (¬ Accepted par i ct → ∃ err, k.computesInnerSum ct = Res.err err ∧ k.rotatesRows ct = Res.err err ∧ (∀ t, k.rotatesColumnsBy ct t = Res.err err) ∧ ∀ size, k.expands ct size = Res.err err) ∧
    (Accepted par i ct →
      ((k.supportsInnerSum = some true ∧ ∃ r, k.computesInnerSum ct = Res.ok r) ∨ (k.supportsInnerSum = some false ∧ k.computesInnerSum ct = Res.err (.unsupported .innerSum))) ∧
      ((k.supportsRowRotation = true ∧ ∃ r, k.rotatesRows ct = Res.ok r) ∨ (k.supportsRowRotation = false ∧ k.rotatesRows ct = Res.err (.unsupported .rowRotation))) ∧
      (∀ t, (k.supportsColumnRotationBy t = true ∧ ∃ r, k.rotatesColumnsBy ct t = Res.ok r) ∨
        (k.supportsColumnRotationBy t = false ∧ k.rotatesColumnsBy ct t = Res.err (.unsupported (.columnRotation t)))) ∧
      (∀ size, 1 ≤ size → size ≤ par.degree → (k.supportsExpansion (RnsScaler.ceilLog2 size) = some true ∧ ∃ r, k.expands ct size = Res.ok r ∧ r.length = size) ∨
        (k.supportsExpansion (RnsScaler.ceilLog2 size) = some false ∧ k.expands ct size = Res.err (.unsupported (.expansion (RnsScaler.ceilLog2 size))))) ∧
      ∀ size, size = 0 ∨ par.degree < size → k.expands ct size = Res.err (.invalidExpansionSize size par.degree)) := by
  obtain ⟨n, hw, -⟩ := build_inv hb h
  obtain ⟨hnp, hiff⟩ := C48_validate hb h ct
  constructor
  · intro hbad
    have : ∃ err, k.validateCiphertext ct = Res.err err := by
      unfold EvaluationKey.validateCiphertext
      rw [hk.par_eq]
      rcases Res.cases (ct.validateFor par) with ⟨u, hu⟩ | ⟨e, hu⟩ | hu
      · rw [hu, Res.ok_bind]
        by_cases h2 : ct.c.length ≠ 2
        · exact ⟨_, by rw [if_pos h2]⟩
        · by_cases h3 : ct.level ≠ k.ciphertextLevel
          · exact ⟨_, by rw [if_neg h2, if_pos h3]⟩
          · rw [hk.level] at h3
            exact absurd ⟨hu, by simpa using h2, by simpa using h3⟩ hbad
      · exact ⟨e, by rw [hu, Res.err_bind]⟩
      · exact absurd hu hnp
    obtain ⟨err, he⟩ := this
    refine ⟨err, ?_, ?_, fun t => ?_, fun size => ?_⟩
    · unfold EvaluationKey.computesInnerSum; rw [he, Res.err_bind]
    · unfold EvaluationKey.rotatesRows; rw [he, Res.err_bind]
    · unfold EvaluationKey.rotatesColumnsBy; rw [he, Res.err_bind]
    · unfold EvaluationKey.expands; rw [he, Res.err_bind]
  · rintro ⟨g1, g2, g3⟩
    obtain ⟨f1, f2, f3, f4⟩ := hiff.1 g1
    obtain ⟨m, v, he⟩ := Ciphertext.exists_encrypts hw s (hpar f1) f2 f3 f4 hv
    rw [g3] at he
    obtain ⟨V, hV⟩ := v.exists_bound
    obtain ⟨S, hS⟩ := s.exists_bound
    obtain ⟨B, hB⟩ := k.exists_error (par := par) S e
    have hfit : ct.Fits par s i m V := ⟨v, he, g2, hV⟩
    have hval := EvaluationKey.validateCiphertext_ok hw hk he g2
    obtain ⟨r1, r2⟩ := EvaluationKey.rotates_eq hw hk hS hB hfit
    refine ⟨?_, ?_, fun t => ?_, fun size h1 h2 => ?_, fun size hsz => ?_⟩
    · obtain ⟨q, hq, -⟩ := EvaluationKey.supportsInnerSum_eq hw hk
      cases q with
      | true =>
        obtain ⟨r, e1, -⟩ := EvaluationKey.computesInnerSum_eq hw hk hS hB hfit hq
        exact Or.inl ⟨hq, r, e1⟩
      | false =>
        refine Or.inr ⟨hq, ?_⟩
        unfold EvaluationKey.computesInnerSum
        rw [hval, Res.ok_bind, hq, Res.lift_some, Res.ok_bind, if_pos rfl]
    · cases hq : k.supportsRowRotation with
      | true =>
        obtain ⟨r, e1, -⟩ := r1 hq
        exact Or.inl ⟨rfl, r, e1⟩
      | false =>
        refine Or.inr ⟨rfl, ?_⟩
        unfold EvaluationKey.rotatesRows
        rw [hval, Res.ok_bind, hq, if_pos rfl]
    · cases hq : k.supportsColumnRotationBy t with
      | true =>
        obtain ⟨-, -, r, e1, -⟩ := r2 t hq
        exact Or.inl ⟨rfl, r, e1⟩
      | false =>
        refine Or.inr ⟨rfl, ?_⟩
        unfold EvaluationKey.rotatesColumnsBy
        rw [hval, Res.ok_bind, hq, if_pos rfl]
    · have hlog : RnsScaler.ceilLog2 size ≤ 64 := by
        by_cases h1' : size = 1
        · subst h1'; rw [EvaluationKey.ceilLog2_one]; omega
        · obtain ⟨s1, s2⟩ := RnsScaler.ceilLog2_spec (show 1 < size by omega)
          by_contra hc
          have h3 : 2 ^ 64 ≤ 2 ^ RnsScaler.ceilLog2 size := Nat.pow_le_pow_right (by norm_num) (by omega)
          have h4 : 2 ^ n ≤ 2 ^ 16 := Nat.pow_le_pow_right (by norm_num) hw.le_16
          rw [hw.degree] at h2
          omega
      obtain ⟨q, hq, hq'⟩ := EvaluationKey.supportsExpansion_eq hw hk hlog
      cases q with
      | true =>
        obtain ⟨r, e1, e2, -⟩ := EvaluationKey.expands_eq hw hk hS hB hfit h1 h2 hq
        exact Or.inl ⟨hq, r, e1, e2⟩
      | false =>
        refine Or.inr ⟨hq, ?_⟩
        unfold EvaluationKey.expands
        rw [hval, Res.ok_bind, if_neg (by omega), hk.par_eq, if_neg (by omega)]
        simp only []
        rw [if_neg (fun h0 => by rw [h0] at hq'; simp at hq'), hq, Res.lift_some, Res.ok_bind, if_neg (by simp)]
    · unfold EvaluationKey.expands
      rw [hval, Res.ok_bind, hk.par_eq]
      by_cases h0 : size = 0
      · rw [if_pos h0]
      · rw [if_neg h0, if_pos (by omega)]

/-! ## C42: rotations -/

/-- C42: a rotation by `t` columns, or of the rows, with an evaluation key that supports it: the slots of the result are those of the message,
rotated; the noise grows by at most `t B`, where `B` bounds the error of a key switch. -/
theorem C42_rotate (hb : b.OK) (h : build b st = Res.ok par.toBfvParameters) (hk : k.IsFor par s i j e) (hS : s.Bounded S) (hB : k.ErrorAtMost par S e B) (h1 : ct.Encrypts par s i m v)
    (h2 : ct.c.length = 2) (hV : v.Bounded V) :
    (k.supportsRowRotation = true → ∃ r v', k.rotatesRows ct = Res.ok r ∧ r.Encrypts par s i (Nega.subst (2 * par.degree - 1) m) v' ∧ r.c.length = 2 ∧ v'.Bounded (V + par.plaintext.value * B) ∧
      (par.nttOperator ≠ none → ∀ (pt pt' : Plaintext) (lv lv' c c' : Nat), pt.Holds par c m → pt'.Holds par c' (Nega.subst (2 * par.degree - 1) m) →
        (pt.encoding = none ∨ pt.encoding = some ⟨.simd, lv⟩) → (pt'.encoding = none ∨ pt'.encoding = some ⟨.simd, lv'⟩) →
        ∃ w : List Nat, w.length = par.degree ∧ pt.decodeU64 (some ⟨.simd, lv⟩) = Res.ok w ∧
          pt'.decodeU64 (some ⟨.simd, lv'⟩) = Res.ok ((List.range par.degree).map fun i => w.getD (swapRows par.degree i) 0))) ∧
    ∀ t, k.supportsColumnRotationBy t = true → ∃ r v', k.rotatesColumnsBy ct t = Res.ok r ∧ r.Encrypts par s i (Nega.subst (3 ^ t) m) v' ∧ r.c.length = 2 ∧
      v'.Bounded (V + par.plaintext.value * B) ∧
      (par.nttOperator ≠ none → ∀ (pt pt' : Plaintext) (lv lv' c c' : Nat), pt.Holds par c m → pt'.Holds par c' (Nega.subst (3 ^ t) m) →
        (pt.encoding = none ∨ pt.encoding = some ⟨.simd, lv⟩) → (pt'.encoding = none ∨ pt'.encoding = some ⟨.simd, lv'⟩) →
        ∃ w : List Nat, w.length = par.degree ∧ pt.decodeU64 (some ⟨.simd, lv⟩) = Res.ok w ∧
          pt'.decodeU64 (some ⟨.simd, lv'⟩) = Res.ok ((List.range par.degree).map fun i => w.getD (rotateColumns par.degree t i) 0)) := by
  obtain ⟨n, hw, -⟩ := build_inv hb h
  have hpos : 0 < par.degree := by rw [hw.degree]; positivity
  obtain ⟨r1, r2⟩ := EvaluationKey.rotates_eq hw hk hS hB (ct := ct) ⟨v, h1, h2, hV⟩
  refine ⟨fun hs => ?_, fun t ht => ?_⟩
  · obtain ⟨r, e1, v', e2, e3, e4⟩ := r1 hs
    refine ⟨r, v', e1, e2, e3, e4, fun hop pt pt' lv lv' c c' a1 a2 a3 a4 => ?_⟩
    obtain ⟨w, w1, w2, -, w3⟩ := C42_slots hb h hop a1 a2 a3 a4
    exact ⟨w, w1, w2, w3 (Nat.mod_eq_of_lt (by omega))⟩
  · obtain ⟨-, -, r, e1, v', e2, e3, e4⟩ := r2 t ht
    refine ⟨r, v', e1, e2, e3, e4, fun hop pt pt' lv lv' c c' a1 a2 a3 a4 => ?_⟩
    obtain ⟨w, w1, w2, w3, -⟩ := C42_slots hb h hop a1 a2 a3 a4
    exact ⟨w, w1, w2, w3 t rfl⟩

/-! ## C43: the inner sum -/

/-- C43: the inner sum, with an evaluation key that supports it: the result holds the constant `N m₀`, which in terms of slots means that every
slot holds the sum of all slots of the message; the noise is at most `N V + (N - 1) t B`. -/
theorem C43_inner_sum (hb : b.OK) (h : build b st = Res.ok par.toBfvParameters) (hk : k.IsFor par s i j e) (hS : s.Bounded S) (hB : k.ErrorAtMost par S e B) (h1 : ct.Encrypts par s i m v)
    (h2 : ct.c.length = 2) (hV : v.Bounded V) (hsup : k.supportsInnerSum = some true) :
    ∃ r v', k.computesInnerSum ct = Res.ok r ∧ r.Encrypts par s i (const (par.degree * coeff m 0)) v' ∧ r.c.length = 2 ∧
      v'.Bounded (par.degree * V + (par.degree - 1) * (par.plaintext.value * B)) ∧
      (par.nttOperator ≠ none → ∀ (pt pt' : Plaintext) (lv lv' c c' : Nat), pt.Holds par c m → pt'.Holds par c' (const (par.degree * coeff m 0)) →
        (pt.encoding = none ∨ pt.encoding = some ⟨.simd, lv⟩) → (pt'.encoding = none ∨ pt'.encoding = some ⟨.simd, lv'⟩) →
        ∃ w : List Nat, w.length = par.degree ∧ pt.decodeU64 (some ⟨.simd, lv⟩) = Res.ok w ∧
          pt'.decodeU64 (some ⟨.simd, lv'⟩) = Res.ok (List.replicate par.degree (w.sum % par.plaintext.value))) := by
  obtain ⟨n, hw, -⟩ := build_inv hb h
  obtain ⟨r, e1, v', e2, e3, e4⟩ := EvaluationKey.computesInnerSum_eq hw hk hS hB (ct := ct) ⟨v, h1, h2, hV⟩ hsup
  have htr := trace_eq hw.three_le hw.degree m
  have htr' : EvaluationKey.innerMsg m ((List.range (n - 1)).map (2 ^ ·)) + Nega.subst (2 * par.degree - 1) (EvaluationKey.innerMsg m ((List.range (n - 1)).map (2 ^ ·))) =
    const (par.degree * coeff m 0) := htr
  refine ⟨r, v', e1, htr' ▸ e2, e3, e4, fun hop pt pt' lv lv' c c' a1 a2 a3 a4 => ?_⟩
  rw [← htr'] at a2
  obtain ⟨ζ, hζ, -⟩ := Plaintext.slots_inj hw hop
  have hneg := hζ.neg_one hw hop
  have hsm := Plaintext.small_of_op hw hop
  have ht := hw.t_pos
  have : NeZero par.plaintext.value := ⟨by omega⟩
  have hn : 3 ≤ n := hw.three_le
  have hN := hw.degree
  have h64 : ∀ m : par.Msg, ∀ x ∈ msgCoeffs m, x < 2 ^ 64 := fun m x hx => by have := msgCoeffs_lt m x hx; omega
  have dec : ∀ {pt : Plaintext} {level lv : Nat} {m : par.Msg}, pt.Holds par level m → (pt.encoding = none ∨ pt.encoding = some ⟨.simd, lv⟩) →
      pt.decodeU64 (some ⟨.simd, lv⟩) = Res.ok (tab par.degree fun i => (slotValue ζ m i).val) := by
    intro pt level lv m hm he
    have he' : pt.resolveEncoding (some ⟨.simd, lv⟩) = Res.ok ⟨.simd, lv⟩ :=
      Plaintext.resolveEncoding_ok (by rcases he with he | he <;> [exact Or.inr ⟨he, rfl⟩; exact Or.inl ⟨he, Or.inr rfl⟩])
    rw [Plaintext.decodeU64_eq hw hζ hm he' (fun _ => hop) (h64 _)]
    rfl
  refine ⟨_, length_tab _ _, dec a1 a3, ?_⟩
  rw [dec a2 a4, Res.ok_inj]
  refine List.eq_replicate_iff.2 ⟨length_tab _ _, fun x hx => ?_⟩
  obtain ⟨c, hc, rfl⟩ := List.mem_map.1 hx
  have hc' : c < par.degree := by simpa using hc
  have key := slotValue_total hneg (by omega) hN m hc'
  simp only [] at key
  unfold EvaluationKey.innerMsg
  rw [key]
  rw [← cast_sum_tab, ZMod.val_natCast]
  rfl

/-! ## C44: expansion -/

/-- C44: expansion of a ciphertext to `size` ciphertexts, with an evaluation key that supports it: the `p`-th holds the coefficients `p`,
`p + 2^l`, `p + 2 · 2^l`, … of the message, all times `2^l`, where `2^l` is the least power of two that is at least `size`; the noise is at
most `2^l V + (2^l - 1) t B`. -/
theorem C44_expand (hb : b.OK) (h : build b st = Res.ok par.toBfvParameters) (hk : k.IsFor par s i j e) (hS : s.Bounded S) (hB : k.ErrorAtMost par S e B) (h1 : ct.Encrypts par s i m v)
    (h2 : ct.c.length = 2) (hV : v.Bounded V) {size : Nat} (h0 : 1 ≤ size) (hN : size ≤ par.degree) {l : Nat} (hl : size ≤ 2 ^ l) (hl' : ∀ l', size ≤ 2 ^ l' → l ≤ l')
    (hsup : k.supportsExpansion l = some true) :
    ∃ out, k.expands ct size = Res.ok out ∧ out.length = size ∧ ∀ p < size, ∃ r v', out[p]? = some r ∧ r.Encrypts par s i (expandMsg l p m) v' ∧ r.c.length = 2 ∧
      v'.Bounded (2 ^ l * V + (2 ^ l - 1) * (par.plaintext.value * B)) := by
  obtain ⟨n, hw, -⟩ := build_inv hb h
  obtain rfl : l = RnsScaler.ceilLog2 size := by
    by_cases h1' : size = 1
    · subst h1'
      rw [EvaluationKey.ceilLog2_one]
      exact Nat.le_zero.1 (hl' 0 (by norm_num))
    · obtain ⟨s1, s2⟩ := RnsScaler.ceilLog2_spec (show 1 < size by omega)
      refine le_antisymm (hl' _ s1) ?_
      by_contra hc
      have h3 : 2 ^ (l + 1) ≤ 2 ^ RnsScaler.ceilLog2 size := Nat.pow_le_pow_right (by norm_num) (by omega)
      rw [pow_succ] at h3
      omega
  obtain ⟨out, e1, e2, e3⟩ := EvaluationKey.expands_eq hw hk hS hB (ct := ct) ⟨v, h1, h2, hV⟩ h0 hN hsup
  refine ⟨out, e1, e2, fun p hp => ?_⟩
  obtain ⟨r, r1, v', r2, r3, r4⟩ := e3 p hp
  exact ⟨r, v', r1, r2, r3, r4⟩

/-- C44: if the message has no coefficients from `size` on, then the `p`-th ciphertext holds the constant `2^l` times the `p`-th
coefficient. -/
theorem C44_constant [NeZero par.plaintext.value] {size l : Nat} (hl : size ≤ 2 ^ l) (hm : ∀ q : Fin par.degree, size ≤ q.val → m q = 0) {p : Nat} (hp : p < size) (hN : size ≤ par.degree) :
    msgCoeffs (expandMsg l p m) = (2 ^ l * (msgCoeffs m).getD p 0 % par.plaintext.value) :: List.replicate (par.degree - 1) 0 := by
  have hlen : ∀ m : par.Msg, (msgCoeffs m).length = par.degree := fun m => by simp [msgCoeffs]
  have hget : ∀ (m : par.Msg) (q : Nat) (hq : q < par.degree), (msgCoeffs m).getD q 0 = (m ⟨q, hq⟩).val := fun m q hq => by
    rw [List.getD_eq_getElem _ _ (by rw [hlen]; exact hq)]; simp [msgCoeffs]
  refine List.ext_getElem (by rw [hlen]; simp; omega) fun q hq _ => ?_
  rw [hlen] at hq
  rw [← List.getD_eq_getElem _ 0, hget _ q hq]
  cases q with
  | zero =>
    rw [hget _ p (by omega), List.getElem_cons_zero]
    unfold expandMsg
    rw [dif_pos ⟨by simp, by simp; omega⟩]
    simp only [add_zero]
    rw [ZMod.val_mul]
    conv_rhs => rw [Nat.mul_mod]
    congr 2
    · rw [show (2 ^ l : ZMod par.plaintext.value) = ((2 ^ l : Nat) : ZMod par.plaintext.value) by push_cast; rfl, ZMod.val_natCast]
    · exact (Nat.mod_eq_of_lt (ZMod.val_lt _)).symm
  | succ q =>
    rw [List.getElem_cons_succ, List.getElem_replicate]
    unfold expandMsg
    by_cases hc : 2 ^ l ∣ q + 1 ∧ p + (q + 1) < par.degree
    · rw [dif_pos hc, hm _ (by have := Nat.le_of_dvd (by omega) hc.1; simp only []; omega), MulZeroClass.mul_zero, ZMod.val_zero]
    · rw [dif_neg hc, ZMod.val_zero]

/-- At the parameters of `exCipher`, with a key built after five requests, of which one is out of range: the key has exactly the keys asked
for; a rotation by two columns, the inner sum and an expansion to eight ciphertexts decrypt to what they should. -/
example : ∃ (par : Par) (sk : SecretKey) (m : par.Msg) (ct : Ciphertext) (bd bd' : EvaluationKeyBuilder) (k : EvaluationKey), msgCoeffs m = [1, 2, 16, 0, 0, 0, 0, 0] ∧ par.nttOperator ≠ none ∧
    EvaluationKeyBuilder.newLeveled luckyBuild sk 0 0 = Res.ok bd ∧ bd.requests [.columns 3, .columns 4, .expansion 3, .innerSum, .expansion 9] = some bd' ∧
    bd'.build luckyBuild exPrg (fun _ => List.replicate 32 3) (fun _ _ => exRng) = Res.ok k ∧ k.supportsColumnRotationBy 3 = true ∧ k.supportsRowRotation = true ∧
    (k.gk.lookup 5).isSome = true ∧ (k.gk.lookup 7).isSome = false ∧
    (∃ r pt, k.rotatesColumnsBy ct 3 = Res.ok r ∧ sk.tryDecrypt luckyBuild r = Res.ok pt ∧ pt.Holds par 0 (Nega.subst 27 m)) ∧
    (∃ r pt m', k.computesInnerSum ct = Res.ok r ∧ sk.tryDecrypt luckyBuild r = Res.ok pt ∧ pt.Holds par 0 m' ∧ m' = const 8 ∧ pt.encoding = none) ∧
    ∃ out r pt m', k.expands ct 7 = Res.ok out ∧ out.length = 7 ∧ out[2]? = some r ∧ sk.tryDecrypt luckyBuild r = Res.ok pt ∧ pt.Holds par 0 m' ∧ msgCoeffs m' = [9, 0, 0, 0, 0, 0, 0, 0] := by
  obtain ⟨par, sk, s, pt, pt', m, m', ct, ct', v, v', h, hd, ht, hm, hrel, hk, hs, e2, e2', em, em', f1, f1', f2, f2', f3, f3', f4, f4', f5, f6, h0, hvar⟩ := exCipher
  have hb := luckyBuild_ok
  obtain ⟨bd, bd', k, g1, g2, g3, g4, g5, g6, g7, g8, g9, g10, g11⟩ := C50_build (i := 0) (j := 0) hb h (by rw [hm]; decide) hk exPrg_ok (by rw [hm]; decide) (le_refl _)
    [.columns 3, .columns 4, .expansion 3, .innerSum, .expansion 9] (fun _ => List.replicate 32 3) (rngs := fun _ _ => exRng) (fun _ _ => exRng_ok)
  have hB := g6 (by rw [hm]; decide) 2
  have hlast : lastExpansion par.degree [.columns 3, .columns 4, .expansion 3, .innerSum, .expansion 9] = 3 := by rw [hd]; decide
  have hex : k.supportsExpansion 3 = some true := g11 3 hlast.ge
  have hin : k.supportsInnerSum = some true := g10 (by simp)
  have hc3 : k.supportsColumnRotationBy 3 = true := g9 3 (by simp) (by omega) (by rw [hd]; decide)
  refine ⟨par, sk, m, ct, bd, bd', k, em, ?_, g1, g2, g3, hc3, g7.2 (by simp), ?_, ?_, ?_, ?_, ?_⟩
  · exact (C34_available hb h).2 luckyBuild_lucky (by rw [ht]; norm_num) (by rw [ht]; norm_num) (by rw [ht, hd])
  · exact (g5 5).2 (Or.inr (Or.inr (Or.inr ⟨1, by rw [hlast]; decide, by rw [hd]; rfl⟩)))
  · rw [← Bool.not_eq_true, g5 7]
    rintro (⟨t, -, -, -, hx⟩ | ⟨-, hx⟩ | ⟨-, a, ha, hx⟩ | ⟨l, -, hx⟩)
    · rw [hd] at hx
      have h2 : 3 ^ t % 8 = 1 ∨ 3 ^ t % 8 = 3 := by
        clear hx
        induction t with
        | zero => left; rfl
        | succ t ih => rw [pow_succ]; omega
      omega
    · rw [hd] at hx; omega
    · rw [hd] at hx
      have h2 : ∀ t, 3 ^ t % 8 = 1 ∨ 3 ^ t % 8 = 3 := fun t => by
        induction t with
        | zero => left; rfl
        | succ t ih => rw [pow_succ]; omega
      have := h2 (2 ^ a)
      omega
    · rw [hd] at hx
      have : 8 / 2 ^ l = 6 := by omega
      have h8 : (8 / 2 ^ l) ∣ 8 := by
        by_cases hl : l ≤ 3
        · exact Nat.div_dvd_of_dvd (pow_dvd_pow 2 hl)
        · have h4 : 2 ^ 4 ≤ 2 ^ l := Nat.pow_le_pow_right (by norm_num) (by omega)
          have h5 : 8 / 2 ^ l = 0 := Nat.div_eq_of_lt (by omega)
          omega
      rw [this] at h8
      omega
  · obtain ⟨r, v'', r1, r2, -, r3, -⟩ := (C42_rotate hb h g4 hs hB f2 f4 f3).2 3 hc3
    obtain ⟨pt, k6, k7, -⟩ := C37_decrypt hb h hrel hk r2 (small_of_bounded r3 (by rw [h0, ht, hd, hm, hvar]; decide))
    exact ⟨r, pt, r1, k6, k7⟩
  · obtain ⟨r, v'', r1, r2, -, r3, -⟩ := C43_inner_sum hb h g4 hs hB f2 f4 f3 hin
    obtain ⟨pt, k6, k7, k8⟩ := C37_decrypt hb h hrel hk r2 (small_of_bounded r3 (by rw [h0, ht, hd, hm, hvar]; decide))
    refine ⟨r, pt, _, r1, k6, k7, ?_, k8⟩
    have : NeZero par.plaintext.value := ⟨by rw [ht]; decide⟩
    have hc : coeff m 0 = 1 := by
      have h1 : (coeff m 0).val = 1 := by
        have h2 : (msgCoeffs m).getD 0 0 = 1 := by rw [em]; rfl
        rw [coeff_of_lt m (by rw [hd]; decide : 0 < par.degree), ← h2, List.getD_eq_getElem _ _ (by rw [em]; decide)]
        simp [msgCoeffs]
      rw [← ZMod.natCast_zmod_val (coeff m 0), h1]; simp
    have h8 : (par.degree : ZMod par.plaintext.value) = 8 := by rw [show ((par.degree : Nat) : ZMod par.plaintext.value) = ((8 : Nat) : ZMod par.plaintext.value) by rw [← hd]]; simp
    rw [hc, mul_one, h8]
  · obtain ⟨out, o1, o2, o3⟩ := C44_expand hb h g4 hs hB f2 f4 f3 (size := 7) (by omega) (by rw [hd]; decide) (l := 3) (by decide) (fun l' hl' => by
      by_contra hc
      have : 2 ^ l' ≤ 2 ^ 2 := Nat.pow_le_pow_right (by norm_num) (by omega)
      omega) hex
    obtain ⟨r, v'', r1, r2, -, r3⟩ := o3 2 (by omega)
    obtain ⟨pt, k6, k7, -⟩ := C37_decrypt hb h hrel hk r2 (small_of_bounded r3 (by rw [h0, ht, hd, hm, hvar]; decide))
    have : NeZero par.plaintext.value := ⟨by rw [ht]; decide⟩
    refine ⟨out, r, pt, _, o1, o2, r1, k6, k7, ?_⟩
    rw [C44_constant (size := 8) (by decide) (fun q hq => absurd q.isLt (by omega)) (by omega) hd.ge, em, ht, hd]
    rfl

end Fhe.Props
