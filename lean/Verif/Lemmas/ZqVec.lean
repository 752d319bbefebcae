import Verif.Lemmas.Zq
/-! Lemmas about vectors, centering, exponentiation and inversion in the `zq` model. -/
namespace Fhe

theorem mapM_eq_some_map {α β : Type} {f : α → Option β} {g : α → β} {l : List α}
    (h : ∀ x ∈ l, f x = some (g x)) : l.mapM f = some (l.map g) := by
  induction l with
  | nil => rfl
  | cons a l ih =>
    rw [List.mapM_cons, h a (by simp), ih (fun x hx => h x (by simp [hx]))]
    rfl

namespace Modulus

theorem zipAssign_eq {f : Nat → Nat → Panics Nat} {g : Nat → Nat → Nat} {a b : List Nat}
    (hl : a.length = b.length) (h : ∀ x ∈ a, ∀ y ∈ b, f x y = some (g x y)) :
    zipAssign f a b = some (List.zipWith g a b) := by
  induction a generalizing b with
  | nil => cases b with
    | nil => rfl
    | cons _ _ => simp at hl
  | cons x a ih =>
    cases b with
    | nil => simp at hl
    | cons y b =>
      simp only [zipAssign, h x (by simp) y (by simp), Option.bind_eq_bind, Option.bind_some]
      rw [ih (by simpa using hl) (fun u hu v hv => h u (by simp [hu]) v (by simp [hv]))]
      rfl

theorem chunkAssign_eq {f : Nat → Nat → Panics Nat} {g : Nat → Nat → Nat} {a b : List Nat}
    (hl : a.length = b.length) (h : ∀ x ∈ a, ∀ y ∈ b, f x y = some (g x y)) :
    chunkAssign f a b = some (List.zipWith g a b) := by
  induction hn : a.length using Nat.strong_induction_on generalizing a b with
  | _ n ih =>
    rw [chunkAssign]
    split
    · rename_i hc
      have h1 : zipAssign f (a.take 16) (b.take 16) = some (List.zipWith g (a.take 16) (b.take 16)) :=
        zipAssign_eq (by simp [hl]) (fun x hx y hy => h x (List.mem_of_mem_take hx) y (List.mem_of_mem_take hy))
      have h2 := ih (a.drop 16).length (by simp only [List.length_drop]; omega) (a := a.drop 16) (b := b.drop 16)
        (by simp [hl]) (fun x hx y hy => h x (List.mem_of_mem_drop hx) y (List.mem_of_mem_drop hy)) rfl
      simp only [h1, h2, Option.bind_eq_bind, Option.bind_some]
      have h3 : List.zipWith g a b = List.zipWith g (a.take 16 ++ a.drop 16) (b.take 16 ++ b.drop 16) := by
        rw [List.take_append_drop, List.take_append_drop]
      rw [h3, List.zipWith_append (by simp [hl])]
      rfl
    · exact zipAssign_eq hl h

theorem zipAssign3_eq {f : Nat → Nat → Nat → Panics Nat} {g : Nat → Nat → Nat} {s : Nat → Panics Nat}
    {a b c : List Nat} (hl : a.length = b.length) (hc : b.mapM s = some c)
    (h : ∀ x ∈ a, ∀ y ∈ b, ∀ z, s y = some z → f x y z = some (g x y)) :
    zipAssign3 f a b c = some (List.zipWith g a b) := by
  induction a generalizing b c with
  | nil => cases b with
    | nil => simp [zipAssign3]
    | cons _ _ => simp at hl
  | cons x a ih =>
    cases b with
    | nil => simp at hl
    | cons y b =>
      rw [List.mapM_cons] at hc
      cases hs : s y with
      | none => simp [hs] at hc
      | some z =>
        cases hb : b.mapM s with
        | none => simp [hs, hb] at hc
        | some c' =>
          simp only [hs, hb, Option.bind_eq_bind, Option.bind_some] at hc
          obtain rfl : z :: c' = c := Option.some.inj hc
          simp only [zipAssign3, h x (by simp) y (by simp) z hs, Option.bind_eq_bind, Option.bind_some]
          rw [ih (by simpa using hl) hb (fun u hu v hv => h u (by simp [hu]) v (by simp [hv]))]
          rfl

variable {m : Modulus}

theorem addVec_eq (hm : m.WF) {a b : List Nat} (hl : a.length = b.length) (ha : ∀ x ∈ a, x < m.p)
    (hb : ∀ x ∈ b, x < m.p) : m.addVec a b = some (List.zipWith (fun x y => (x + y) % m.p) a b) := by
  simp only [addVec, check_eq hl, Option.bind_eq_bind, Option.bind_some]
  exact zipAssign_eq hl (fun x hx y hy => add_eq hm (ha x hx) (hb y hy))
theorem addVecVt_eq (hm : m.WF) {a b : List Nat} (hl : a.length = b.length) (ha : ∀ x ∈ a, x < m.p)
    (hb : ∀ x ∈ b, x < m.p) : m.addVecVt a b = some (List.zipWith (fun x y => (x + y) % m.p) a b) := by
  have := hm.lt
  simp only [addVecVt, check_eq hl, Option.bind_eq_bind, Option.bind_some]
  refine chunkAssign_eq hl (fun x hx y hy => ?_)
  have := ha x hx
  have := hb y hy
  rw [add64_eq (by omega), Option.bind_some]
  exact reduce1Vt_eq hm.lt63 (by omega)
theorem subVec_eq (hm : m.WF) {a b : List Nat} (hl : a.length = b.length) (ha : ∀ x ∈ a, x < m.p)
    (hb : ∀ x ∈ b, x < m.p) : m.subVec a b = some (List.zipWith (fun x y => (x + m.p - y) % m.p) a b) := by
  simp only [subVec, check_eq hl, Option.bind_eq_bind, Option.bind_some]
  exact zipAssign_eq hl (fun x hx y hy => sub_eq hm (ha x hx) (hb y hy))
theorem subVecVt_eq (hm : m.WF) {a b : List Nat} (hl : a.length = b.length) (ha : ∀ x ∈ a, x < m.p)
    (hb : ∀ x ∈ b, x < m.p) : m.subVecVt a b = some (List.zipWith (fun x y => (x + m.p - y) % m.p) a b) := by
  have := hm.lt
  simp only [subVecVt, check_eq hl, Option.bind_eq_bind, Option.bind_some]
  refine chunkAssign_eq hl (fun x hx y hy => ?_)
  have := ha x hx
  have := hb y hy
  rw [add64_eq (by omega), Option.bind_some, subU_eq (by omega), Option.bind_some, Nat.add_comm m.p x]
  exact reduce1Vt_eq hm.lt63 (by omega)
theorem mulVec_eq (hm : m.WF) {a b : List Nat} (hl : a.length = b.length) (ha : ∀ x ∈ a, x < m.p)
    (hb : ∀ x ∈ b, x < m.p) : m.mulVec a b = some (List.zipWith (fun x y => x * y % m.p) a b) := by
  simp only [mulVec, check_eq hl, Option.bind_eq_bind, Option.bind_some]
  split
  · exact zipAssign_eq hl (fun x hx y hy => mulOpt_eq hm (by assumption) (ha x hx) (hb y hy))
  · exact zipAssign_eq hl (fun x hx y hy => mul_eq hm (ha x hx) (hb y hy))
theorem mulVecVt_eq (hm : m.WF) {a b : List Nat} (hl : a.length = b.length) (ha : ∀ x ∈ a, x < m.p)
    (hb : ∀ x ∈ b, x < m.p) : m.mulVecVt a b = some (List.zipWith (fun x y => x * y % m.p) a b) := by
  simp only [mulVecVt, check_eq hl, Option.bind_eq_bind, Option.bind_some]
  split
  · exact zipAssign_eq hl (fun x hx y hy => mulOptVt_eq hm (by assumption) (ha x hx) (hb y hy))
  · exact zipAssign_eq hl (fun x hx y hy => mulVt_eq hm (ha x hx) (hb y hy))
theorem scalarMulVec_eq (hm : m.WF) {a : List Nat} {b : Nat} (ha : ∀ x ∈ a, x < 2 ^ 64) (hb : b < m.p) :
    m.scalarMulVec a b = some (a.map (fun x => x * b % m.p)) := by
  simp only [scalarMulVec, shoup_eq hm hb, Option.bind_eq_bind, Option.bind_some]
  exact mapM_eq_some_map (fun x hx => mulShoup_eq hm (ha x hx) hb (shoup_eq hm hb))
theorem scalarMulVecVt_eq (hm : m.WF) {a : List Nat} {b : Nat} (ha : ∀ x ∈ a, x < 2 ^ 64) (hb : b < m.p) :
    m.scalarMulVecVt a b = some (a.map (fun x => x * b % m.p)) := by
  simp only [scalarMulVecVt, shoup_eq hm hb, Option.bind_eq_bind, Option.bind_some]
  exact mapM_eq_some_map (fun x hx => mulShoupVt_eq hm (ha x hx) hb (shoup_eq hm hb))
theorem shoupVec_eq (hm : m.WF) {b : List Nat} (hb : ∀ x ∈ b, x < m.p) :
    m.shoupVec b = some (b.map (fun x => x * 2 ^ 64 / m.p)) :=
  mapM_eq_some_map (fun x hx => shoup_eq hm (hb x hx))
theorem mulShoupVec_eq (hm : m.WF) {a b bs : List Nat} (hl : a.length = b.length) (ha : ∀ x ∈ a, x < 2 ^ 64)
    (hb : ∀ x ∈ b, x < m.p) (hs : m.shoupVec b = some bs) :
    m.mulShoupVec a b bs = some (List.zipWith (fun x y => x * y % m.p) a b) := by
  have hlen : a.length = bs.length := by
    rw [shoupVec_eq hm hb] at hs
    rw [← Option.some.inj hs, List.length_map, hl]
  simp only [mulShoupVec, check_eq hl, check_eq hlen, check_eq hs.symm, Option.bind_eq_bind, Option.bind_some]
  exact zipAssign3_eq hl hs (fun x hx y hy z hz => mulShoup_eq hm (ha x hx) (hb y hy) hz)
theorem mulShoupVecVt_eq (hm : m.WF) {a b bs : List Nat} (hl : a.length = b.length) (ha : ∀ x ∈ a, x < 2 ^ 64)
    (hb : ∀ x ∈ b, x < m.p) (hs : m.shoupVec b = some bs) :
    m.mulShoupVecVt a b bs = some (List.zipWith (fun x y => x * y % m.p) a b) := by
  have hlen : a.length = bs.length := by
    rw [shoupVec_eq hm hb] at hs
    rw [← Option.some.inj hs, List.length_map, hl]
  simp only [mulShoupVecVt, check_eq hl, check_eq hlen, check_eq hs.symm, Option.bind_eq_bind, Option.bind_some]
  exact zipAssign3_eq hl hs (fun x hx y hy z hz => mulShoupVt_eq hm (ha x hx) (hb y hy) hz)
theorem reduceVec_eq (hm : m.WF) {a : List Nat} (ha : ∀ x ∈ a, x < 2 ^ 64) :
    m.reduceVec a = some (a.map (· % m.p)) := mapM_eq_some_map (fun x hx => reduce_eq hm (ha x hx))
theorem reduceVecVt_eq (hm : m.WF) {a : List Nat} (ha : ∀ x ∈ a, x < 2 ^ 64) :
    m.reduceVecVt a = some (a.map (· % m.p)) := mapM_eq_some_map (fun x hx => reduceVt_eq hm (ha x hx))
theorem negVec_eq (hm : m.WF) {a : List Nat} (ha : ∀ x ∈ a, x < m.p) :
    m.negVec a = some (a.map (fun x => (m.p - x) % m.p)) := mapM_eq_some_map (fun x hx => neg_eq hm (ha x hx))
theorem negVecVt_eq (hm : m.WF) {a : List Nat} (ha : ∀ x ∈ a, x < m.p) :
    m.negVecVt a = some (a.map (fun x => (m.p - x) % m.p)) := mapM_eq_some_map (fun x hx => negVt_eq hm (ha x hx))

theorem mapM_exists {α β : Type} {f : α → Option β} {P : α → β → Prop} {l : List α}
    (h : ∀ x ∈ l, ∃ y, f x = some y ∧ P x y) : ∃ l', l.mapM f = some l' ∧ List.Forall₂ P l l' := by
  induction l with
  | nil => exact ⟨[], rfl, .nil⟩
  | cons a l ih =>
    obtain ⟨y, hy, hP⟩ := h a (by simp)
    obtain ⟨l', hl', hF⟩ := ih (fun x hx => h x (by simp [hx]))
    refine ⟨y :: l', ?_, .cons hP hF⟩
    rw [List.mapM_cons, hy, hl']; rfl

theorem lazyReduceVec_eq (hm : m.WF) {a : List Nat} (ha : ∀ x ∈ a, x < 2 ^ 64) :
    ∃ r, m.lazyReduceVec a = some r ∧ List.Forall₂ (fun x y => y < 2 * m.p ∧ y % m.p = x % m.p) a r := by
  unfold lazyReduceVec
  split
  · exact mapM_exists (fun x hx => lazyReduceOpt_eq hm (by assumption) (ha x hx))
  · exact mapM_exists (fun x hx => lazyReduce_eq hm (ha x hx))

/-! ### Signed values -/

theorem asI64_of_lt {x : Nat} (h : x < 2 ^ 63) : asI64 x = x := if_pos h

theorem center_eq (hm : m.WF) {a : Nat} (ha : a < m.p) :
    m.center a = some (if a < m.p / 2 then (a : Int) else (a : Int) - m.p) := by
  have hlt := hm.lt
  have h1 : asI64 a = a := asI64_of_lt (by omega)
  have h2 : asI64 m.p = m.p := asI64_of_lt (by omega)
  have h3 : ofI64 ((a : Int) - m.p) < 2 ^ 64 := by unfold ofI64; omega
  simp only [center, check_eq ha, Option.bind_eq_bind, Option.bind_some, h1, h2]
  rw [condSelect_eq h3 (by omega), Nat.shiftRight_eq_div_pow, Nat.pow_one]
  by_cases hc : a < m.p / 2
  · rw [if_pos hc, if_neg (by simpa using hc), h1]; rfl
  · rw [if_neg hc, if_pos (by simpa using Nat.le_of_not_lt hc)]
    unfold ofI64 asI64
    have : ((a : Int) - m.p) % 2 ^ 64 = (a : Int) - m.p + 2 ^ 64 := by omega
    rw [this, if_neg (by omega)]
    show some _ = _
    congr 1
    omega

theorem i64Operand_eq (hm : m.WF) {a : Int} (h1 : -(2 ^ 63) ≤ a) (h2 : a < 2 ^ 63) :
    ∃ n, m.i64Operand a = some n ∧ n < 2 ^ 128 ∧ n % m.p = (a % m.p).toNat := by
  have hlt := hm.lt
  have h2le := hm.two_le
  have hc : -(2 ^ 127 : Int) ≤ (m.p : Int) * 2 ^ 64 + a ∧ (m.p : Int) * 2 ^ 64 + a < 2 ^ 127 := by omega
  refine ⟨((m.p : Int) * 2 ^ 64 + a).toNat, ?_, by omega, ?_⟩
  · simp only [i64Operand, check_eq hc, Option.bind_eq_bind, Option.bind_some]
    have : ((m.p : Int) * 2 ^ 64 + a) % 2 ^ 128 = (m.p : Int) * 2 ^ 64 + a := by omega
    rw [this]; rfl
  · have e : ((((m.p : Int) * 2 ^ 64 + a).toNat : Nat) : Int) = (m.p : Int) * 2 ^ 64 + a := by omega
    zify
    rw [e, Int.toNat_of_nonneg (Int.emod_nonneg _ (by omega)), Int.add_comm, Int.add_mul_emod_self_left]

theorem reduceI64_eq (hm : m.WF) {a : Int} (h1 : -(2 ^ 63) ≤ a) (h2 : a < 2 ^ 63) :
    m.reduceI64 a = some (a % m.p).toNat := by
  obtain ⟨n, e1, e2, e3⟩ := i64Operand_eq hm h1 h2
  simp only [reduceI64, e1, Option.bind_eq_bind, Option.bind_some, reduceU128_eq hm e2, e3]
theorem reduceI64Vt_eq (hm : m.WF) {a : Int} (h1 : -(2 ^ 63) ≤ a) (h2 : a < 2 ^ 63) :
    m.reduceI64Vt a = some (a % m.p).toNat := by
  obtain ⟨n, e1, e2, e3⟩ := i64Operand_eq hm h1 h2
  simp only [reduceI64Vt, e1, Option.bind_eq_bind, Option.bind_some, reduceU128Vt_eq hm e2, e3]

/-! ### Exponentiation and inversion -/

theorem powLoop_eq (hm : m.WF) {a n : Nat} (ha : a < m.p) (k r : Nat) (hr : r = a ^ (n >>> k) % m.p) :
    m.powLoop a n k r = some (a ^ n % m.p) := by
  induction k generalizing r with
  | zero => subst hr; rfl
  | succ i ih =>
    have hrp : r < m.p := by rw [hr]; exact Nat.mod_lt _ hm.pos
    simp only [powLoop, mul_eq hm hrp hrp, Option.bind_eq_bind, Option.bind_some]
    have hs : n >>> i = 2 * (n >>> (i + 1)) + n >>> i % 2 := by
      rw [Nat.shiftRight_succ]; omega
    have hsq : r * r % m.p = a ^ (2 * (n >>> (i + 1))) % m.p := by
      rw [hr, ← Nat.mul_mod, two_mul, pow_add]
    rw [Nat.and_one_is_mod]
    by_cases hb : n >>> i % 2 = 1
    · rw [if_pos hb, mul_eq hm (Nat.mod_lt _ hm.pos) ha, Option.bind_some]
      apply ih
      rw [hs, hb, pow_succ, Nat.mod_mul_mod, hr]
      rw [Nat.mul_mod (a ^ _ % m.p * _), ← Nat.mul_mod (a ^ _), ← pow_add, ← two_mul, ← Nat.mul_mod]
    · rw [if_neg hb]
      apply ih
      have h0 : n >>> i % 2 = 0 := by omega
      rw [hs, h0, Nat.add_zero, hsq]

theorem pow_eq (hm : m.WF) {a n : Nat} (ha : a < m.p) (hn : n < m.p) : m.pow a n = some (a ^ n % m.p) := by
  have hp2 := hm.two_le
  have hlt := hm.lt
  simp only [pow, check_eq (And.intro ha hn), Option.bind_eq_bind, Option.bind_some]
  split
  · rename_i h; subst h
    rw [pow_zero, Nat.mod_eq_of_lt (by omega)]; rfl
  · split
    · rename_i h; subst h
      rw [pow_one, Nat.mod_eq_of_lt ha]; rfl
    · rename_i h0 h1
      have hb62 : bitLen n ≤ 62 := bitLen_le_iff.2 (by omega)
      have hb2 : 2 ≤ bitLen n := by
        by_contra hc
        have : n < 2 ^ 1 := bitLen_le_iff.1 (by omega)
        omega
      have hz : lz64 n = 64 - bitLen n := rfl
      rw [subU_eq (by omega), Option.bind_some]
      apply powLoop_eq hm ha
      have e : 62 - lz64 n + 1 = bitLen n - 1 := by omega
      have h2 : n >>> (bitLen n - 1) = 1 := by
        rw [Nat.shiftRight_eq_div_pow]
        have l1 : 2 ^ (bitLen n - 1) ≤ n := two_pow_le_of_bitLen (by omega)
        have l2 : n < 2 ^ bitLen n := lt_two_pow_bitLen n
        have l3 : 2 ^ bitLen n = 2 * 2 ^ (bitLen n - 1) := by
          conv_lhs => rw [show bitLen n = bitLen n - 1 + 1 by omega, pow_succ]
          ring
        apply Nat.div_eq_of_lt_le <;> omega
      rw [e, h2, pow_one, Nat.mod_eq_of_lt ha]

theorem fermat {p a : Nat} (hp : p.Prime) (ha0 : a ≠ 0) (ha : a < p) : a * (a ^ (p - 2) % p) % p = 1 % p := by
  have := Fact.mk hp
  have hne : (a : ZMod p) ≠ 0 := by
    rw [Ne, ZMod.natCast_eq_zero_iff]
    intro hd
    exact absurd (Nat.le_of_dvd (by omega) hd) (by omega)
  have h := ZMod.pow_card_sub_one_eq_one hne
  have h2 : a * a ^ (p - 2) = a ^ (p - 1) := by
    rw [← pow_succ']; congr 1; have := hp.two_le; omega
  have h3 : ((a * a ^ (p - 2) : Nat) : ZMod p) = ((1 : Nat) : ZMod p) := by
    rw [h2]; push_cast; exact h
  rw [Nat.mul_mod, Nat.mod_mod, ← Nat.mul_mod]
  exact (ZMod.natCast_eq_natCast_iff' _ _ _).1 h3

theorem inv_eq_none (h : ¬ m.p.Prime ∨ a = 0) : m.inv a = some none := by
  unfold inv isPrime
  rw [if_pos (by simpa using h)]; rfl

theorem inv_eq_some (hm : m.WF) (hp : m.p.Prime) {a : Nat} (ha0 : a ≠ 0) (ha : a < m.p) :
    m.inv a = some (some (a ^ (m.p - 2) % m.p)) := by
  have hp2 := hm.two_le
  unfold inv isPrime
  rw [if_neg (by simp [hp, ha0])]
  have h1 := fermat hp ha0 ha
  rw [Nat.mod_eq_of_lt (show 1 < m.p by omega)] at h1
  have h2 : m.mul a (a ^ (m.p - 2) % m.p) = some 1 := by
    rw [mul_eq hm ha (Nat.mod_lt _ hm.pos), h1]
  simp only [subU_eq hp2, Option.bind_eq_bind, Option.bind_some, pow_eq hm ha (show m.p - 2 < m.p by omega),
    check_eq h2]
  rfl

/-! ### Construction -/

theorem new_eq_ok {cfg : Bool} {p : Nat} (h : 2 ≤ p ∧ p < 2 ^ 62) :
    ∃ m, Modulus.new cfg p = some (.ok m) ∧ m.p = p ∧ m.vtCfg = cfg ∧ m.WF := by
  obtain ⟨h2, hlt⟩ := h
  have h62 : p >>> 62 = 0 := by rw [Nat.shiftRight_eq_div_pow]; exact Nat.div_eq_of_lt hlt
  have hb : (1 <<< 128) / p < 2 ^ 128 := by
    rw [Nat.one_shiftLeft]; exact Nat.div_lt_self (by norm_num) h2
  unfold new
  rw [if_neg (by omega)]
  simp only [check_eq hb, Option.bind_eq_bind, Option.bind_some]
  refine ⟨_, rfl, rfl, rfl, ?_⟩
  rw [Nat.one_shiftLeft] at *
  have hhi : 2 ^ 128 / p / 2 ^ 64 < 2 ^ 64 := by omega
  constructor
  · exact h2
  · exact hlt
  · simp only [asU64, Nat.shiftRight_eq_div_pow]; exact Nat.mod_eq_of_lt hhi
  · rfl
  · rfl
  · rfl

theorem new_eq_error {cfg : Bool} {p : Nat} (h : ¬ (2 ≤ p ∧ p < 2 ^ 62)) :
    Modulus.new cfg p = some (.error (.invalidModulus p)) := by
  unfold new
  rw [if_pos]
  rw [Nat.shiftRight_eq_div_pow, Nat.div_ne_zero_iff]
  omega

theorem WF_of_new {cfg : Bool} {p : Nat} {m : Modulus} (h : Modulus.new cfg p = some (.ok m)) :
    m.WF ∧ m.p = p ∧ m.vtCfg = cfg := by
  by_cases hc : 2 ≤ p ∧ p < 2 ^ 62
  · obtain ⟨m', h1, h2, h3, h4⟩ := new_eq_ok (cfg := cfg) hc
    rw [h1] at h
    cases h
    exact ⟨h4, h2, h3⟩
  · rw [new_eq_error hc] at h; cases h

theorem new_of_WF {m : Modulus} (h : m.WF) : Modulus.new m.vtCfg m.p = some (.ok m) := by
  obtain ⟨m', h1, h2, h3, h4⟩ := new_eq_ok (cfg := m.vtCfg) ⟨h.two_le, h.lt⟩
  rw [h1]
  have e1 := h4.hi; have e2 := h4.lo; have e3 := h4.lz; have e4 := h4.opt
  rw [h2] at e1 e2 e3 e4
  rw [← h.hi] at e1; rw [← h.lo] at e2; rw [← h.lz] at e3; rw [← h.opt] at e4
  cases m; cases m'
  simp_all

end Modulus
end Fhe
