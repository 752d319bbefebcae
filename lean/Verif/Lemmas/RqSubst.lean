import Verif.Lemmas.RqConv
/-! Substitution `X ↦ X^e` and multiplication by powers of `X`. -/
namespace Fhe
open NttOperator Nega

theorem revBits_high {n b z : Nat} (hb : b < 2) (hz : z < 2 ^ n) : revBits (n + 1) (b * 2 ^ n + z) = 2 * revBits n z + b := by
  induction n generalizing z with
  | zero =>
    obtain rfl : z = 0 := by simpa using hz
    rcases (by omega : b = 0 ∨ b = 1) with rfl | rfl <;> rfl
  | succ n ih =>
    rw [pow_succ] at hz
    have e1 : b * 2 ^ (n + 1) + z = 2 * (b * 2 ^ n) + z := by rw [pow_succ]; ring
    rw [e1, revBits, show (2 * (b * 2 ^ n) + z) % 2 = z % 2 by omega,
      show (2 * (b * 2 ^ n) + z) / 2 = b * 2 ^ n + z / 2 by omega, ih (by omega), revBits, pow_succ]
    ring

theorem revBits_revBits {n x : Nat} (hx : x < 2 ^ n) : revBits n (revBits n x) = x := by
  induction n generalizing x with
  | zero => simp at hx; subst hx; rfl
  | succ n ih =>
    rw [pow_succ] at hx
    conv_lhs => enter [2]; rw [revBits]
    rw [revBits_high (by omega) (revBits_lt _ _), ih (by omega)]
    omega

theorem tab_succ {α : Type} (k : Nat) (f : Nat → α) : tab (k + 1) f = f 0 :: tab k fun i => f (i + 1) := by
  simp [tab, List.range_succ_eq_map, Function.comp_def]

theorem and_mask (x n : Nat) : x &&& (2 ^ n - 1) = x % 2 ^ n := Nat.and_two_pow_sub_one_eq_mod x n

theorem and_pow (x n : Nat) : x &&& 2 ^ n = if x / 2 ^ n % 2 = 1 then 2 ^ n else 0 := by
  apply Nat.eq_of_testBit_eq
  intro i
  rw [Nat.testBit_and, Nat.testBit_two_pow]
  by_cases hi : n = i
  · subst hi
    rw [Nat.testBit_eq_decide_div_mod_eq]
    by_cases h : x / 2 ^ n % 2 = 1 <;> simp [h]
  · split <;> simp [hi]

theorem substPowers_eq {n e : Nat} (hn : n ≤ 31) (left k P : Nat) (hk : left + k ≤ 2 ^ n) (he : e < 2 * 2 ^ n) (hP : P = (e - 1) / 2 + k * e) :
    substPowers (2 ^ n) e left P = some (tab left fun i => revBits n (((e - 1) / 2 + (k + i) * e) % 2 ^ n)) := by
  induction left generalizing k P with
  | zero => rfl
  | succ left ih =>
    have hN : 2 ^ n ≤ 2 ^ 31 := Nat.pow_le_pow_right (by norm_num) hn
    have hle : (k + 1) * e ≤ 2 ^ n * (2 * 2 ^ n) := Nat.mul_le_mul (by omega) he.le
    have h2 : 2 ^ n * (2 * 2 ^ n) ≤ 2 ^ 31 * (2 * 2 ^ 31) := Nat.mul_le_mul hN (by omega)
    have h3 : P + e = (e - 1) / 2 + (k + 1) * e := by rw [hP]; ring
    rw [substPowers, and_mask, bitrev_shift (by omega), add64_eq (by rw [h3]; norm_num at h2 ⊢; omega)]
    simp only [Option.bind_eq_bind, Option.bind_some]
    rw [ih (k + 1) (P + e) (by omega) h3, Option.bind_some, tab_succ, hP]
    simp only [Nat.add_zero, Nat.add_assoc, Nat.add_comm 1]
    rfl

theorem SubstExponent.new_odd {b : Build} {c : Context} {n : Nat} (h : c.WF b n) (hn : n ≤ 31) {e : Nat} (he : e % 2 = 1) :
    SubstExponent.new c e = some (.ok ⟨e % (2 * 2 ^ n), c,
      tab (2 ^ n) fun j => revBits n (((e % (2 * 2 ^ n) - 1) / 2 + j * (e % (2 * 2 ^ n))) % 2 ^ n)⟩) := by
  have hN : 2 ^ n ≤ 2 ^ 31 := Nat.pow_le_pow_right (by norm_num) hn
  have hpos : 0 < 2 ^ n := by positivity
  have hodd : e % (2 * 2 ^ n) % 2 = 1 := by rw [Nat.mod_mul_right_mod]; exact he
  unfold SubstExponent.new
  rw [h.level.degree, mul64_eq (by omega), Option.bind_eq_bind, Option.bind_some, check_eq (by omega)]
  simp only [Option.bind_eq_bind, Option.bind_some]
  rw [if_neg (by rw [Nat.and_one_is_mod, hodd]; omega),
    substPowers_eq hn (2 ^ n) 0 _ (by omega) (Nat.mod_lt _ (by omega)) (by omega)]
  simp only [Nat.zero_add]
  rfl

theorem SubstExponent.new_even {b : Build} {c : Context} {n : Nat} (h : c.WF b n) {e : Nat} (he : e % 2 = 0) :
    SubstExponent.new c e = some (.error (.invalidSubstitutionExponent (e % (2 * c.degree)) c.degree)) := by
  have hN : 2 ^ n < 2 ^ 61 := Nat.pow_lt_pow_right (by norm_num) h.level.n_lt
  have hpos : 0 < 2 ^ n := by positivity
  have hev : e % (2 * 2 ^ n) % 2 = 0 := by rw [Nat.mod_mul_right_mod]; exact he
  unfold SubstExponent.new
  rw [h.level.degree, mul64_eq (by omega), Option.bind_eq_bind, Option.bind_some, check_eq (by omega)]
  simp only [Option.bind_eq_bind, Option.bind_some]
  rw [if_pos (by rw [Nat.and_one_is_mod, hev])]
  rfl

theorem permRow_eq {n : Nat} {ρ pb : Nat → Nat} (hpb : ∀ j < 2 ^ n, pb j < 2 ^ n) (left k : Nat) (hk : left + k = 2 ^ n) :
    Poly.permRow (tab (2 ^ n) ρ) (tab left fun i => revBits n (k + i)) (tab left fun i => pb (k + i))
      (tab (2 ^ n) fun x => if revBits n x < k then ρ (pb (revBits n x)) else 0) =
    some (tab (2 ^ n) fun x => ρ (pb (revBits n x))) := by
  induction left generalizing k with
  | zero =>
    rw [show (tab 0 fun i => revBits n (k + i)) = [] from rfl, show (tab 0 fun i => pb (k + i)) = [] from rfl, Poly.permRow]
    · congr 1
      refine tab_congr fun x _ => ?_
      rw [if_pos (by have := revBits_lt n x; omega)]
    · simp
  | succ left ih =>
    rw [tab_succ, tab_succ]
    simp only [Nat.add_zero, Poly.permRow]
    rw [tab_get? _ (hpb k (by omega)), Option.bind_eq_bind, Option.bind_some, check_eq (by rw [length_tab]; exact revBits_lt _ _), Option.bind_eq_bind, Option.bind_some, tab_set]
    have := ih (k + 1) (by omega)
    simp only [Nat.add_assoc, Nat.add_comm 1] at this
    rw [← this]
    congr 1
    refine tab_congr fun x hx => ?_
    by_cases hxk : x = revBits n k
    · rw [if_pos hxk, hxk, revBits_revBits (by omega), if_pos (by omega)]
    · rw [if_neg hxk]
      have hne : revBits n x ≠ k := fun e => hxk (by rw [← e, revBits_revBits hx])
      by_cases h1 : revBits n x < k
      · rw [if_pos h1, if_pos (by omega)]
      · rw [if_neg h1, if_neg (by omega)]

/-- The point reached by the permutation. -/
theorem subst_point {R : Type*} [CommRing R] {n e j : Nat} {ω : R} (hω : ω ^ 2 ^ n = -1) (he : e % 2 = 1) :
    ω ^ (2 * (((e - 1) / 2 + j * e) % 2 ^ n) + 1) = (ω ^ (2 * j + 1)) ^ e := by
  have h1 : ω ^ (2 * 2 ^ n) = 1 := by rw [mul_comm, pow_mul, hω]; ring
  have h2 : ∀ a, ω ^ (a % (2 * 2 ^ n)) = ω ^ a := fun a => by
    conv_rhs => rw [← Nat.div_add_mod a (2 * 2 ^ n), pow_add, pow_mul, h1, one_pow, one_mul]
  have h3 : 2 * ((e - 1) / 2 + j * e) + 1 = (2 * j + 1) * e := by
    have : 2 * ((e - 1) / 2) + 1 = e := by omega
    calc 2 * ((e - 1) / 2 + j * e) + 1 = (2 * ((e - 1) / 2) + 1) + 2 * j * e := by ring
      _ = (2 * j + 1) * e := by rw [this]; ring
  rw [← pow_mul, ← h3, pow_succ, pow_succ, ← Nat.mul_mod_mul_left, h2]

namespace Poly
variable {b : Build} {c : Context} {n : Nat} {r : Rep} {vt vt' : Bool}

theorem substRow_ntt (h : c.WF b n) {op : NttOperator} (hop : op ∈ c.ops) {e : Nat} (he : e % 2 = 1) (f : c.Elem) (F : Nat → Nat) :
    permRow ((encRow .ntt f op).map F) c.bitrev (tab (2 ^ n) fun j => revBits n (((e - 1) / 2 + j * e) % 2 ^ n)) (List.replicate c.degree 0) =
      some ((encRow .ntt (subst e f) op).map F) := by
  have := h.neZero
  obtain ⟨ω, ωi, hw⟩ := h.level.ops op hop
  have hN := h.level.degree
  have hp : 0 < 2 ^ n := by positivity
  have e1 := fun f => nttRow_eq hw hN (h.dvd hop) f
  have hperm := permRow_eq (n := n) (ρ := fun x => F (evalFn (ZMod.castHom (h.dvd hop) (ZMod op.p.p)) ((ω : ZMod op.p.p) ^ (2 * revBits n x + 1)) f).val)
    (pb := fun j => revBits n (((e - 1) / 2 + j * e) % 2 ^ n)) (fun j _ => revBits_lt _ _) (2 ^ n) 0 (by omega)
  simp only [Nat.zero_add, Nat.not_lt_zero, if_false] at hperm
  change permRow ((nttRow f op).map F) _ _ _ = some ((nttRow _ op).map F)
  rw [e1, e1, h.level.bitrev, tab_map, tab_map, replicate_eq_tab]
  simp only [← hN] at hperm ⊢
  refine hperm.trans ?_
  congr 1
  refine tab_congr fun x _ => ?_
  have hrr : ∀ a, revBits n (revBits n (a % c.degree)) = a % 2 ^ n := fun a => by rw [hN]; exact revBits_revBits (Nat.mod_lt _ hp)
  rw [hrr, subst_point hw.root he, evalFn_subst _ (by rw [hN]; exact ω_pow hw _) (by rw [hN]; exact hp)]

theorem substNtt_eq (h : c.WF b n) {e : Nat} (he : e % 2 = 1) (f : c.Elem) (s : SubstExponent)
    (hs : s.powerBitrev = tab (2 ^ n) fun j => revBits n (((e - 1) / 2 + j * e) % 2 ^ n)) (F : NttOperator → Nat → Nat) :
    substNtt c s (c.ops.map fun op => (encRow .ntt f op).map (F op)) = some (c.ops.map fun op => (encRow .ntt (subst e f) op).map (F op)) := by
  unfold substNtt
  rw [zeroRows_eq h]
  refine zipRows_map fun op hop => ?_
  rw [hs]
  exact substRow_ntt h hop he f (F op)

theorem substCell_eq (h : c.WF b n) {op : NttOperator} (hop : op ∈ c.ops) (f G : c.Elem) (power : Nat) {j : Nat} (hj : j < c.degree) :
    substCell c.degree power j (encRow .powerBasis G op) (op.p, encRow .powerBasis f op) =
      some (encRow .powerBasis (G + C (coeff f j) * mono power) op) := by
  have := h.neZero
  obtain ⟨ω, ωi, hw⟩ := h.level.ops op hop
  have : NeZero op.p.p := ⟨hw.prime.ne_zero⟩
  have hN := h.level.degree
  have hpos : 0 < c.degree := by omega
  have hi : power % c.degree < c.degree := Nat.mod_lt _ hpos
  have hq := h.dvd hop
  change substCell _ _ _ (pbRow G op.p.p) (op.p, pbRow f op.p.p) = some (pbRow _ op.p.p)
  rw [pbRow_eq hq, pbRow_eq hq, pbRow_eq hq]
  set φ := ZMod.castHom hq (ZMod op.p.p)
  have hmask : power &&& (c.degree - 1) = power % c.degree := by rw [hN]; exact and_mask _ _
  have hand : power &&& c.degree ≠ 0 ↔ power / c.degree % 2 = 1 := by
    rw [hN, and_pow]; have : 2 ^ n ≠ 0 := by positivity
    by_cases hh : power / 2 ^ n % 2 = 1 <;> simp [hh]
  unfold substCell
  simp only [hmask]
  rw [tab_get? _ hi, tab_get? _ hj]
  simp only [Option.bind_eq_bind, Option.bind_some]
  have hsign : substSign c.degree power op.p (φ (coeff G (power % c.degree))).val (φ (coeff f j)).val =
      some (φ (coeff G (power % c.degree) + coeff f j * (if power / c.degree % 2 = 0 then 1 else -1))).val := by
    unfold substSign
    by_cases hh : power / c.degree % 2 = 1
    · rw [if_pos (hand.2 hh), Modulus.sub_eq hw.modulus (ZMod.val_lt _) (ZMod.val_lt _), zmod_sub_mod, if_neg (by omega), ← map_sub]
      congr 3; ring
    · rw [if_neg (fun hc => hh (hand.1 hc)), Modulus.add_eq hw.modulus (ZMod.val_lt _) (ZMod.val_lt _), zmod_add_mod, if_pos (by omega), ← map_add]
      congr 3; ring
  rw [hsign, Option.bind_some, tab_set]
  change some _ = some _
  congr 1
  refine tab_congr fun i hi' => ?_
  rw [coeff_of_lt (G + _) hi', Nega.add_apply, C_mul_apply]
  unfold mono
  simp only
  by_cases hii : i = power % c.degree
  · rw [if_pos hii, if_pos hii, ← coeff_of_lt G hi', hii]
  · rw [if_neg hii, if_neg hii, mul_zero, add_zero, ← coeff_of_lt G hi']

theorem substLoop_eq (h : c.WF b n) {e : Nat} (he : e < 2 * c.degree) (hn : n ≤ 31) (f : c.Elem) (left j : Nat) (hj : left + j = c.degree) (G : c.Elem) :
    substLoop c.degree e c.q (c.ops.map fun op => encRow .powerBasis f op) left j (e * j) (c.ops.map fun op => encRow .powerBasis G op) =
      some (c.ops.map fun op => encRow .powerBasis (G + ∑ i ∈ Finset.Ico j c.degree, C (coeff f i) * mono (e * i)) op) := by
  induction left generalizing j G with
  | zero =>
    obtain rfl : j = c.degree := by omega
    simp [substLoop]
  | succ left ih =>
    have hN : c.degree ≤ 2 ^ 31 := by rw [h.level.degree]; exact Nat.pow_le_pow_right (by norm_num) hn
    have h2 : e * (j + 1) ≤ (2 * 2 ^ 31) * 2 ^ 31 := Nat.mul_le_mul (by omega) (by omega)
    rw [substLoop, h.level.q, zip_map_same, zipRows_map (k := fun op => encRow .powerBasis (G + C (coeff f j) * mono (e * j)) op)
      (fun op hop => substCell_eq h hop f G _ (by omega)), Option.bind_eq_bind, Option.bind_some,
      add64_eq (by rw [← Nat.mul_succ]; norm_num at h2 ⊢; omega), Option.bind_eq_bind, Option.bind_some, ← Nat.mul_succ, ← h.level.q,
      ih (j + 1) (by omega), Finset.sum_eq_sum_Ico_succ_bot (by omega : j < c.degree), add_assoc]

theorem subst_eq_range (e : Nat) {N Q : Nat} (f : Nega N (ZMod Q)) : subst e f = ∑ i ∈ Finset.Ico 0 N, C (coeff f i) * mono (e * i) := by
  rw [subst_eq, Nat.Ico_zero_eq_range, ← Fin.sum_univ_eq_sum_range (fun i => (C (coeff f i) : Nega N (ZMod Q)) * mono (e * i))]
  unfold evalFn
  exact Finset.sum_congr rfl fun i _ => by rw [mono_pow, coeff_val]

theorem substitute_enc (h : c.WF b n) (hn : n ≤ 31) {e : Nat} {s : SubstExponent} (he : e % 2 = 1) (hs : SubstExponent.new c e = some (.ok s)) (r : Rep) (f : c.Elem) :
    (enc c r vt f).substitute s = some (enc c r vt (subst e f)) := by
  have := h.neZero
  rw [SubstExponent.new_odd h hn he] at hs
  have hpos : 0 < 2 ^ n := by positivity
  have hodd : e % (2 * 2 ^ n) % 2 = 1 := by rw [Nat.mod_mul_right_mod]; exact he
  have hse : s.exponent = e % (2 * 2 ^ n) := by cases hs; rfl
  have hsp : s.powerBitrev = tab (2 ^ n) fun j => revBits n (((e % (2 * 2 ^ n) - 1) / 2 + j * (e % (2 * 2 ^ n))) % 2 ^ n) := by cases hs; rfl
  have hsub : subst e f = subst (e % (2 * 2 ^ n)) f := by rw [← h.level.degree, subst_mod]
  rw [hsub]
  have hlt : e % (2 * 2 ^ n) < 2 * c.degree := by rw [h.level.degree]; exact Nat.mod_lt _ (by omega)
  generalize e % (2 * 2 ^ n) = e' at *
  have hid := substNtt_eq h hodd f s hsp (fun _ x => x)
  simp only [List.map_id'] at hid
  have hsh := substNtt_eq h hodd f s hsp (fun op x => x * 2 ^ 64 / op.p.p)
  unfold substitute
  cases r with
  | powerBasis =>
    have := substLoop_eq h hlt hn f c.degree 0 (by omega) 0
    rw [Nat.mul_zero, zero_add, ← subst_eq_range] at this
    have hz := zero_enc h .powerBasis
    have hz2 : zeroRows c.q.length c.degree = c.ops.map fun op => encRow .powerBasis (0 : c.Elem) op := congrArg Poly.coeffs hz
    unfold substPowerBasis
    rw [show (enc c .powerBasis vt f).ctx = c from rfl, show (enc c .powerBasis vt f).coeffs = c.ops.map fun op => encRow .powerBasis f op from rfl,
      hse, hz2, this]
    rfl
  | ntt =>
    simp only
    rw [show (enc c .ntt vt f).ctx = c from rfl, show (enc c .ntt vt f).coeffs = c.ops.map fun op => encRow .ntt f op from rfl, hid]
    rfl
  | nttShoup =>
    simp only
    rw [show (enc c .nttShoup vt f).ctx = c from rfl, show (enc c .nttShoup vt f).coeffs = c.ops.map fun op => encRow .ntt f op from rfl,
      show (enc c .nttShoup vt f).shoup = some (c.ops.map fun op => (encRow .ntt f op).map fun x => x * 2 ^ 64 / op.p.p) from rfl, hid]
    simp only [Option.bind_eq_bind, Option.bind_some]
    rw [hsh]
    rfl

/-! ### Multiplication by `X^(-power)` -/

theorem shiftLoop_eq (h : c.WF b n) {op : NttOperator} (hop : op ∈ c.ops) (f : c.Elem) {shift : Nat} (hs : shift < 2 * c.degree) (left k : Nat)
    (hk : left + k = c.degree) :
    shiftLoop c.degree shift op.p (encRow .powerBasis f op) left k (encRow .powerBasis (∑ i ∈ Finset.range k, C (coeff f i) * mono (shift + i) : c.Elem) op) =
      some (encRow .powerBasis (∑ i ∈ Finset.range c.degree, C (coeff f i) * mono (shift + i) : c.Elem) op) := by
  have := h.neZero
  obtain ⟨ω, ωi, hw⟩ := h.level.ops op hop
  have : NeZero op.p.p := ⟨hw.prime.ne_zero⟩
  have hN := h.level.degree
  have hN61 : c.degree < 2 ^ 61 := by rw [hN]; exact Nat.pow_lt_pow_right (by norm_num) h.level.n_lt
  induction left generalizing k with
  | zero => obtain rfl : k = c.degree := by omega
            rfl
  | succ left ih =>
    have hkN : k < c.degree := by omega
    have hi : (shift + k) % c.degree < c.degree := Nat.mod_lt _ (by omega)
    have hq := h.dvd hop
    rw [← ih (k + 1) (by omega), shiftLoop, add64_eq (by omega), Option.bind_eq_bind, Option.bind_some]
    have hmask : (shift + k) &&& (c.degree - 1) = (shift + k) % c.degree := by rw [hN]; exact and_mask _ _
    have hand : (shift + k) &&& c.degree = 0 ↔ (shift + k) / c.degree % 2 = 0 := by
      rw [hN, and_pow]; have : 2 ^ n ≠ 0 := by positivity
      rcases Nat.mod_two_eq_zero_or_one ((shift + k) / 2 ^ n) with hh | hh <;> simp [hh]
    simp only [hmask]
    have hrow : ∀ g : c.Elem, encRow .powerBasis g op = tab c.degree fun j => (ZMod.castHom hq (ZMod op.p.p) (coeff g j)).val := fun g => pbRow_eq hq g
    rw [hrow f, hrow, hrow]
    set φ := ZMod.castHom hq (ZMod op.p.p)
    rw [tab_get? _ hkN, Option.bind_eq_bind, Option.bind_some]
    have hsign : shiftSign c.degree (shift + k) op.p (φ (coeff f k)).val = some (φ (coeff f k * if (shift + k) / c.degree % 2 = 0 then 1 else -1)).val := by
      unfold shiftSign
      by_cases hh : (shift + k) / c.degree % 2 = 0
      · rw [if_pos (hand.2 hh), if_pos hh, mul_one]
      · rw [if_neg (fun hc => hh (hand.1 hc)), if_neg hh, Modulus.neg_eq hw.modulus (ZMod.val_lt _), zmod_neg_mod, ← map_neg]
        congr 3; ring
    rw [hsign, Option.bind_some, check_eq (by rw [length_tab]; exact hi), Option.bind_some, tab_set]
    congr 1
    refine tab_congr fun i hi' => ?_
    rw [Finset.sum_range_succ, coeff_of_lt (_ + _) hi', Nega.add_apply, C_mul_apply]
    unfold mono
    simp only
    by_cases hii : i = (shift + k) % c.degree
    · rw [if_pos hii, if_pos hii]
      have hzero : (∑ x ∈ Finset.range k, C (coeff f x) * mono (shift + x) : c.Elem) ⟨i, hi'⟩ = 0 := by
        rw [Nega.sum_apply]
        refine Finset.sum_eq_zero fun x hx => ?_
        have hxk := Finset.mem_range.1 hx
        rw [C_mul_apply]
        unfold mono
        rw [if_neg, mul_zero]
        simp only
        rw [hii]
        intro e
        have h1 := (Nat.modEq_iff_dvd' (by omega : shift + x ≤ shift + k)).1 e.symm
        have h2 := Nat.le_of_dvd (by omega) h1
        omega
      unfold mono at hzero
      rw [hzero, zero_add]
    · rw [if_neg hii, if_neg hii, mul_zero, add_zero, coeff_of_lt _ hi']

theorem mono_mul_eq {N Q : Nat} (s : Nat) (f : Nega N (ZMod Q)) : mono s * f = ∑ i ∈ Finset.range N, C (coeff f i) * mono (s + i) := by
  conv_lhs => rw [eq_sum_mono f]
  rw [Finset.mul_sum, ← Fin.sum_univ_eq_sum_range (fun i => (C (coeff f i) : Nega N (ZMod Q)) * mono (s + i))]
  exact Finset.sum_congr rfl fun i _ => by rw [mono_add, coeff_val]; ring

theorem multiplyInversePowerOfX_enc (h : c.WF b n) {k : Nat} (hk : k ≤ 2 * c.degree) (f : c.Elem) :
    (enc c .powerBasis vt f).multiplyInversePowerOfX k = some (enc c .powerBasis vt (mono (2 * c.degree - k) * f)) := by
  have hN61 : c.degree < 2 ^ 61 := by rw [h.level.degree]; exact Nat.pow_lt_pow_right (by norm_num) h.level.n_lt
  have hpos : 0 < c.degree := by rw [h.level.degree]; positivity
  unfold multiplyInversePowerOfX
  simp only [show (enc c .powerBasis vt f).ctx = c from rfl, show c.degree <<< 1 = 2 * c.degree by rw [Nat.shiftLeft_eq]; ring]
  rw [check_eq (by omega), Option.bind_eq_bind, Option.bind_some, subU_eq hk, Option.bind_eq_bind, Option.bind_some]
  have hz2 : zeroRows c.q.length c.degree = c.ops.map fun op => encRow .powerBasis (0 : c.Elem) op := congrArg Poly.coeffs (zero_enc h .powerBasis)
  rw [show (enc c .powerBasis vt f).coeffs = c.ops.map fun op => encRow .powerBasis f op from rfl, hz2, h.level.q, zip_map_same,
    zipRows_map (k := fun op => encRow .powerBasis (mono (2 * c.degree - k) * f) op)]
  · rfl
  intro op hop
  have := shiftLoop_eq h hop f (shift := (2 * c.degree - k) % (2 * c.degree)) (Nat.mod_lt _ (by omega)) c.degree 0 (by omega)
  rw [Finset.sum_range_zero, ← mono_mul_eq, mono_mod] at this
  exact this

end Poly
end Fhe
