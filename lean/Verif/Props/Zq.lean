import Verif.Lemmas.ZqVec
/-!
# Properties C01-C08: arithmetic modulo a word-sized integer

Every theorem quantifies over the moduli that the constructor accepts (`Modulus.new cfg p = some (.ok m)`) and over both
build configurations `cfg`.  A right-hand side `some v` says that no overflow, underflow or assertion failure happens
and that the returned value is `v`.
-/
namespace Fhe.Props
open Modulus

/-! ## C01 -/

/-- C01: the constructor never panics, accepts exactly `2 ≤ p < 2^62`, remembers `p`, and otherwise reports
`InvalidModulus(p)`. -/
theorem C01_modulus_new (cfg : Bool) (p : Nat) :
    (2 ≤ p ∧ p < 2 ^ 62 → ∃ m, Modulus.new cfg p = some (.ok m) ∧ m.p = p) ∧
    (¬ (2 ≤ p ∧ p < 2 ^ 62) → Modulus.new cfg p = some (.error (.invalidModulus p))) :=
  ⟨fun h => let ⟨m, h1, h2, _⟩ := new_eq_ok h; ⟨m, h1, h2⟩, new_eq_error⟩

example : ∃ m, Modulus.new true 1153 = some (.ok m) ∧ m.p = 1153 := (C01_modulus_new _ _).1 (by norm_num)
example : Modulus.new true (2 ^ 62) = some (.error (.invalidModulus (2 ^ 62))) := (C01_modulus_new _ _).2 (by norm_num)

variable {cfg : Bool} {p : Nat} {m : Modulus}

/-! ## C02 -/

/-- C02: `reduce` is `mod p` on every `u64`, in both variants. -/
theorem C02_reduce (hm : Modulus.new cfg p = some (.ok m)) {a : Nat} (ha : a < 2 ^ 64) :
    m.reduce a = some (a % p) ∧ m.reduceVt a = some (a % p) := by
  obtain ⟨h, rfl, -⟩ := WF_of_new hm
  exact ⟨reduce_eq h ha, reduceVt_eq h ha⟩

/-- C02: `reduce_u128` is `mod p` on every `u128`, in both variants. -/
theorem C02_reduce_u128 (hm : Modulus.new cfg p = some (.ok m)) {a : Nat} (ha : a < 2 ^ 128) :
    m.reduceU128 a = some (a % p) ∧ m.reduceU128Vt a = some (a % p) := by
  obtain ⟨h, rfl, -⟩ := WF_of_new hm
  exact ⟨reduceU128_eq h ha, reduceU128Vt_eq h ha⟩

/-- C02: the lazy variants return a representative of `a` in `[0, 2p)`. -/
theorem C02_lazy_reduce (hm : Modulus.new cfg p = some (.ok m)) {a b : Nat} (ha : a < 2 ^ 64) (hb : b < 2 ^ 128) :
    (∃ r, m.lazyReduce a = some r ∧ r < 2 * p ∧ r % p = a % p) ∧
    (∃ r, m.lazyReduceU128 b = some r ∧ r < 2 * p ∧ r % p = b % p) := by
  obtain ⟨h, rfl, -⟩ := WF_of_new hm
  exact ⟨lazyReduce_eq h ha, lazyReduceU128_eq h hb⟩

/-- Witness used throughout: a 62-bit modulus of the library's test suite exists as an accepted modulus. -/
theorem witness62 : ∃ m, Modulus.new false 4611686018326724609 = some (.ok m) :=
  let ⟨m, h, _⟩ := (C01_modulus_new false 4611686018326724609).1 (by norm_num); ⟨m, h⟩
example : ∃ m : Modulus, m.reduceU128 (2 ^ 128 - 1) = some ((2 ^ 128 - 1) % 4611686018326724609) :=
  let ⟨m, h⟩ := witness62; ⟨m, (C02_reduce_u128 h (by norm_num)).1⟩

/-! ## C03 -/

/-- C03: for every modulus that the library flags as supporting the optimized path (and it is flagged exactly when
Equation (1), i.e. `supports_opt p`, holds), the optimized reductions and products are exact. -/
theorem C03_opt_reduction (hm : Modulus.new cfg p = some (.ok m)) (ho : m.supportsOpt = true) :
    (∀ a < 2 ^ 64, m.reduceOpt a = some (a % p) ∧ m.reduceOptVt a = some (a % p)) ∧
    (∀ a < p * p, m.reduceOptU128 a = some (a % p) ∧ m.reduceOptU128Vt a = some (a % p)) ∧
    (∀ a < p, ∀ b < p, m.mulOpt a b = some (a * b % p) ∧ m.mulOptVt a b = some (a * b % p)) := by
  obtain ⟨h, rfl, -⟩ := WF_of_new hm
  exact ⟨fun a ha => ⟨reduceOpt_eq h ho ha, reduceOptVt_eq h ho ha⟩,
    fun a ha => ⟨reduceOptU128_eq h ho ha, reduceOptU128Vt_eq h ho ha⟩,
    fun a ha b hb => ⟨mulOpt_eq h ho ha hb, mulOptVt_eq h ho ha hb⟩⟩

/-- C03: the flag is the published criterion on `z = ` leading zeros of `p`: `z ≥ 1` and
`2^64 (2^(3z) + 1) < 2^(3z) (2^z + 1) p`. -/
theorem C03_flag (hm : Modulus.new cfg p = some (.ok m)) :
    m.supportsOpt = true ↔
      1 ≤ lz64 p ∧ (2 ^ (3 * lz64 p) + 1) * 2 ^ 64 < 2 ^ (3 * lz64 p) * (2 ^ lz64 p + 1) * p := by
  obtain ⟨h, rfl, -⟩ := WF_of_new hm
  rw [h.opt, Fhe.supportsOpt]
  simp only [Nat.shiftLeft_eq, Nat.one_mul]
  split <;> simp <;> omega

/-- Non-vacuity: the 62-bit prime 4611686018326724609 does support the optimized path. -/
example : ∃ m, Modulus.new true 4611686018326724609 = some (.ok m) ∧ m.supportsOpt = true := by
  obtain ⟨m, h, -⟩ := (C01_modulus_new true 4611686018326724609).1 (by norm_num)
  refine ⟨m, h, ?_⟩
  have hz : lz64 4611686018326724609 = 2 := by decide
  rw [C03_flag h, hz]
  norm_num

/-! ## C04 -/

/-- C04: addition, subtraction, negation and product of reduced operands, constant- and variable-time. -/
theorem C04_field_ops (hm : Modulus.new cfg p = some (.ok m)) {a b : Nat} (ha : a < p) (hb : b < p) :
    (m.add a b = some ((a + b) % p) ∧ m.addVt a b = some ((a + b) % p)) ∧
    (m.sub a b = some (((a : Int) - b) % p).toNat) ∧
    (m.neg a = some ((-(a : Int)) % p).toNat ∧ m.negVt a = some ((-(a : Int)) % p).toNat) ∧
    (m.mul a b = some (a * b % p) ∧ m.mulVt a b = some (a * b % p)) := by
  obtain ⟨h, rfl, -⟩ := WF_of_new hm
  have hs : (((a : Int) - b) % m.p).toNat = (a + m.p - b) % m.p := by
    have : ((a + m.p - b : Nat) : Int) = (a : Int) - b + m.p := by omega
    zify
    rw [Int.toNat_of_nonneg (Int.emod_nonneg _ (by omega)), this, Int.add_emod_right]
  have hn : ((-(a : Int)) % m.p).toNat = (m.p - a) % m.p := by
    have : ((m.p - a : Nat) : Int) = -(a : Int) + m.p := by omega
    zify
    rw [Int.toNat_of_nonneg (Int.emod_nonneg _ (by omega)), this, Int.add_emod_right]
  rw [hs, hn]
  exact ⟨⟨add_eq h ha hb, addVt_eq h ha hb⟩, sub_eq h ha hb, ⟨neg_eq h ha, negVt_eq h ha⟩,
    mul_eq h ha hb, mulVt_eq h ha hb⟩

/-- C04: in the ring `ℤ/p`: every operation succeeds, its result is reduced, and is the ring operation. -/
theorem C04_ring (hm : Modulus.new cfg p = some (.ok m)) {a b : Nat} (ha : a < p) (hb : b < p) :
    (∃ r, m.add a b = some r ∧ r < p ∧ (r : ZMod p) = a + b) ∧
    (∃ r, m.sub a b = some r ∧ r < p ∧ (r : ZMod p) = a - b) ∧
    (∃ r, m.neg a = some r ∧ r < p ∧ (r : ZMod p) = -a) ∧
    (∃ r, m.mul a b = some r ∧ r < p ∧ (r : ZMod p) = a * b) := by
  obtain ⟨h, rfl, -⟩ := WF_of_new hm
  have hp := h.pos
  refine ⟨⟨_, add_eq h ha hb, Nat.mod_lt _ hp, ?_⟩, ⟨_, sub_eq h ha hb, Nat.mod_lt _ hp, ?_⟩,
    ⟨_, neg_eq h ha, Nat.mod_lt _ hp, ?_⟩, ⟨_, mul_eq h ha hb, Nat.mod_lt _ hp, ?_⟩⟩
  · simp
  · rw [ZMod.natCast_mod, Nat.cast_sub (by omega)]; simp
  · rw [ZMod.natCast_mod, Nat.cast_sub (by omega)]; simp
  · simp

example : ∃ m : Modulus, m.sub 3 5 = some 4611686018326724607 :=
  let ⟨m, h⟩ := witness62; ⟨m, (C04_field_ops h (a := 3) (b := 5) (by norm_num) (by norm_num)).2.1⟩

/-! ## C05 -/

/-- C05: Shoup products are exact for every `u64` multiplicand, reduced or not. -/
theorem C05_shoup (hm : Modulus.new cfg p = some (.ok m)) {a b : Nat} (ha : a < 2 ^ 64) (hb : b < p) :
    ∃ s, m.shoup b = some s ∧
      (∃ r, m.lazyMulShoup a b s = some r ∧ r < 2 * p ∧ r % p = a * b % p) ∧
      m.mulShoup a b s = some (a * b % p) ∧ m.mulShoupVt a b s = some (a * b % p) := by
  obtain ⟨h, rfl, -⟩ := WF_of_new hm
  exact ⟨_, shoup_eq h hb, lazyMulShoup_eq h ha hb (shoup_eq h hb), mulShoup_eq h ha hb (shoup_eq h hb),
    mulShoupVt_eq h ha hb (shoup_eq h hb)⟩

example : ∃ m : Modulus, ∃ s, m.mulShoup (2 ^ 64 - 1) 4611686018326724608 s =
    some ((2 ^ 64 - 1) * 4611686018326724608 % 4611686018326724609) :=
  let ⟨m, h⟩ := witness62
  let ⟨s, _, _, h2, _⟩ := C05_shoup h (a := 2 ^ 64 - 1) (b := 4611686018326724608) (by norm_num) (by norm_num)
  ⟨m, s, h2⟩

/-! ## C06 -/

/-- C06: vector addition, subtraction and product are element-wise for every length (including the 16-wide chunked
variable-time loops). -/
theorem C06_vec_binary (hm : Modulus.new cfg p = some (.ok m)) {a b : List Nat} (hl : a.length = b.length)
    (ha : ∀ x ∈ a, x < p) (hb : ∀ x ∈ b, x < p) :
    m.addVec a b = some (List.zipWith (fun x y => (x + y) % p) a b) ∧
    m.addVecVt a b = some (List.zipWith (fun x y => (x + y) % p) a b) ∧
    m.subVec a b = some (List.zipWith (fun x y => (x + p - y) % p) a b) ∧
    m.subVecVt a b = some (List.zipWith (fun x y => (x + p - y) % p) a b) ∧
    m.mulVec a b = some (List.zipWith (fun x y => x * y % p) a b) ∧
    m.mulVecVt a b = some (List.zipWith (fun x y => x * y % p) a b) := by
  obtain ⟨h, rfl, -⟩ := WF_of_new hm
  exact ⟨addVec_eq h hl ha hb, addVecVt_eq h hl ha hb, subVec_eq h hl ha hb, subVecVt_eq h hl ha hb,
    mulVec_eq h hl ha hb, mulVecVt_eq h hl ha hb⟩

/-- C06: unary and scalar vector operations. -/
theorem C06_vec_unary (hm : Modulus.new cfg p = some (.ok m)) {a : List Nat} :
    ((∀ x ∈ a, x < p) → m.negVec a = some (a.map (fun x => (p - x) % p)) ∧
      m.negVecVt a = some (a.map (fun x => (p - x) % p))) ∧
    ((∀ x ∈ a, x < 2 ^ 64) → m.reduceVec a = some (a.map (· % p)) ∧ m.reduceVecVt a = some (a.map (· % p)) ∧
      (∃ r, m.lazyReduceVec a = some r ∧ List.Forall₂ (fun x y => y < 2 * p ∧ y % p = x % p) a r) ∧
      ∀ b < p, m.scalarMulVec a b = some (a.map (fun x => x * b % p)) ∧
        m.scalarMulVecVt a b = some (a.map (fun x => x * b % p))) := by
  obtain ⟨h, rfl, -⟩ := WF_of_new hm
  exact ⟨fun ha => ⟨negVec_eq h ha, negVecVt_eq h ha⟩,
    fun ha => ⟨reduceVec_eq h ha, reduceVecVt_eq h ha, lazyReduceVec_eq h ha,
      fun b hb => ⟨scalarMulVec_eq h ha hb, scalarMulVecVt_eq h ha hb⟩⟩⟩

/-- C06: Shoup vector product with the table computed by `shoup_vec`. -/
theorem C06_vec_shoup (hm : Modulus.new cfg p = some (.ok m)) {a b : List Nat} (hl : a.length = b.length)
    (ha : ∀ x ∈ a, x < 2 ^ 64) (hb : ∀ x ∈ b, x < p) :
    ∃ bs, m.shoupVec b = some bs ∧
      m.mulShoupVec a b bs = some (List.zipWith (fun x y => x * y % p) a b) ∧
      m.mulShoupVecVt a b bs = some (List.zipWith (fun x y => x * y % p) a b) := by
  obtain ⟨h, rfl, -⟩ := WF_of_new hm
  exact ⟨_, shoupVec_eq h hb, mulShoupVec_eq h hl ha hb (shoupVec_eq h hb), mulShoupVecVt_eq h hl ha hb (shoupVec_eq h hb)⟩

/-- Witness with 17 elements (one full chunk and a remainder). -/
example : ∃ m : Modulus, m.addVecVt (List.replicate 17 4611686018326724608) (List.replicate 17 2) =
    some (List.replicate 17 1) :=
  let ⟨m, h⟩ := witness62
  ⟨m, (C06_vec_binary h (a := List.replicate 17 4611686018326724608) (b := List.replicate 17 2) rfl
    (by simp) (by simp)).2.1⟩

/-! ## C07 -/

/-- C07: signed reduction is `mod p` on every `i64`. -/
theorem C07_reduce_i64 (hm : Modulus.new cfg p = some (.ok m)) {a : Int} (h1 : -(2 ^ 63) ≤ a) (h2 : a < 2 ^ 63) :
    m.reduceI64 a = some (a % p).toNat ∧ m.reduceI64Vt a = some (a % p).toNat := by
  obtain ⟨h, rfl, -⟩ := WF_of_new hm
  exact ⟨reduceI64_eq h h1 h2, reduceI64Vt_eq h h1 h2⟩

/-- C07: `center a` is the representative of `a` in `[-⌈p/2⌉, ⌊p/2⌋)`, and signed reduction undoes it. -/
theorem C07_center (hm : Modulus.new cfg p = some (.ok m)) {a : Nat} (ha : a < p) :
    ∃ c, m.center a = some c ∧ c % p = a ∧ -(((p + 1) / 2 : Nat) : Int) ≤ c ∧ c < ((p / 2 : Nat) : Int) ∧
      m.reduceI64 c = some a := by
  obtain ⟨h, rfl, -⟩ := WF_of_new hm
  have hlt := h.lt
  have key : ∀ c : Int, c % m.p = a → -(2 ^ 63) ≤ c → c < 2 ^ 63 → m.reduceI64 c = some a := by
    intro c hc l u
    rw [reduceI64_eq h l u, hc, Int.toNat_natCast]
  refine ⟨_, center_eq h ha, ?_⟩
  by_cases hc : a < m.p / 2
  · rw [if_pos hc]
    have e : (a : Int) % m.p = a := Int.emod_eq_of_lt (by omega) (by omega)
    exact ⟨e, by omega, by omega, key _ e (by omega) (by omega)⟩
  · rw [if_neg hc]
    have e : ((a : Int) - m.p) % m.p = a := by
      rw [Int.sub_emod_right]; exact Int.emod_eq_of_lt (by omega) (by omega)
    exact ⟨e, by omega, by omega, key _ e (by omega) (by omega)⟩

/-- C07: centering undoes signed reduction on `[-⌈p/2⌉, ⌊p/2⌋)`. -/
theorem C07_center_reduce (hm : Modulus.new cfg p = some (.ok m)) {x : Int}
    (h1 : -(((p + 1) / 2 : Nat) : Int) ≤ x) (h2 : x < ((p / 2 : Nat) : Int)) :
    ∃ r, m.reduceI64 x = some r ∧ m.center r = some x := by
  obtain ⟨h, rfl, -⟩ := WF_of_new hm
  have hlt := h.lt
  have h2le := h.two_le
  refine ⟨_, reduceI64_eq h (by omega) (by omega), ?_⟩
  have hr : (x % m.p).toNat < m.p := by
    have := Int.emod_lt_of_pos x (show (0 : Int) < m.p by omega)
    omega
  rw [center_eq h hr]
  by_cases hx : 0 ≤ x
  · have e : x % m.p = x := Int.emod_eq_of_lt hx (by omega)
    rw [e, if_pos (by omega), Int.toNat_of_nonneg hx]
  · have e : x % m.p = x + m.p := by
      rw [← Int.add_emod_right]; exact Int.emod_eq_of_lt (by omega) (by omega)
    rw [e, if_neg (by omega)]
    congr 1
    omega

/-- C07: vectors. -/
theorem C07_vec (hm : Modulus.new cfg p = some (.ok m)) :
    (∀ a : List Nat, (∀ x ∈ a, x < p) →
      m.centerVec a = some (a.map fun x => if x < p / 2 then (x : Int) else (x : Int) - p)) ∧
    (∀ a : List Int, (∀ x ∈ a, -(2 ^ 63) ≤ x ∧ x < 2 ^ 63) →
      m.reduceVecI64 a = some (a.map fun x : Int => (x % p).toNat) ∧
      m.reduceVecI64Vt a = some (a.map fun x : Int => (x % p).toNat)) := by
  obtain ⟨h, rfl, -⟩ := WF_of_new hm
  exact ⟨fun a ha => mapM_eq_some_map fun x hx => center_eq h (ha x hx),
    fun a ha => ⟨mapM_eq_some_map fun x hx => reduceI64_eq h (ha x hx).1 (ha x hx).2,
      mapM_eq_some_map fun x hx => reduceI64Vt_eq h (ha x hx).1 (ha x hx).2⟩⟩

/-- C07, disagreement with the documentation of `center` ("in the interval [-p/2, p/2)"): for the odd modulus 7 the
result for 3 is -4, and `2 * (-4) < -7`. -/
theorem C07_center_doc_counterexample :
    ∃ m, Modulus.new true 7 = some (.ok m) ∧ m.center 3 = some (-4) ∧ ¬ (-7 ≤ 2 * (-4 : Int)) := by
  obtain ⟨m, h, hp, -, hw⟩ := new_eq_ok (cfg := true) (p := 7) (by norm_num)
  refine ⟨m, h, ?_, by norm_num⟩
  rw [center_eq hw (by omega), hp]; rfl

example : ∃ m : Modulus, m.reduceI64 (-(2 ^ 63)) = some ((-(2 ^ 63)) % (4611686018326724609 : Int)).toNat :=
  let ⟨m, h⟩ := witness62; ⟨m, (C07_reduce_i64 h (by norm_num) (by norm_num)).1⟩

/-! ## C08 -/

/-- C08: exponentiation, for all `a, n < p`. -/
theorem C08_pow (hm : Modulus.new cfg p = some (.ok m)) {a n : Nat} (ha : a < p) (hn : n < p) :
    m.pow a n = some (a ^ n % p) := by
  obtain ⟨h, rfl, -⟩ := WF_of_new hm
  exact pow_eq h ha hn

/-- C08: `inv a` is `None` exactly when `p` is composite or `a = 0`; otherwise it is the unique inverse in `[0,p)`. -/
theorem C08_inv (hm : Modulus.new cfg p = some (.ok m)) {a : Nat} (ha : a < p) :
    ((¬ p.Prime ∨ a = 0) → m.inv a = some none) ∧
    (p.Prime ∧ a ≠ 0 → ∃ b, m.inv a = some (some b) ∧ b < p ∧ a * b % p = 1 ∧
      ∀ c < p, a * c % p = 1 → c = b) := by
  obtain ⟨h, rfl, -⟩ := WF_of_new hm
  refine ⟨inv_eq_none, fun ⟨hp, h0⟩ => ?_⟩
  have e := fermat hp h0 ha
  rw [Nat.mod_eq_of_lt (show 1 < m.p from h.two_le)] at e
  refine ⟨_, inv_eq_some h hp h0 ha, Nat.mod_lt _ h.pos, e, fun c hc hcc => ?_⟩
  have hbp : a ^ (m.p - 2) % m.p < m.p := Nat.mod_lt _ h.pos
  generalize a ^ (m.p - 2) % m.p = b at e hbp ⊢
  have hb : b % m.p = c % m.p := by
    calc b % m.p = (a * c % m.p) * b % m.p := by rw [hcc, one_mul]
      _ = c * (a * b % m.p) % m.p := by
        rw [Nat.mod_mul_mod, Nat.mul_mod_mod]; congr 1; ring
      _ = c % m.p := by rw [e, mul_one]
  rw [Nat.mod_eq_of_lt hbp, Nat.mod_eq_of_lt hc] at hb
  exact hb.symm

example : ∃ m : Modulus, m.pow 3 62 = some (3 ^ 62 % 4611686018326724609) :=
  let ⟨m, h⟩ := witness62; ⟨m, C08_pow h (by norm_num) (by norm_num)⟩
example : ∃ m b, Modulus.new true 1153 = some (.ok m) ∧ m.inv 2 = some (some b) ∧ 2 * b % 1153 = 1 := by
  obtain ⟨m, h, -⟩ := (C01_modulus_new true 1153).1 (by norm_num)
  obtain ⟨b, h1, -, h2, -⟩ := (C08_inv h (a := 2) (by norm_num)).2 ⟨by decide +kernel, by norm_num⟩
  exact ⟨m, b, h, h1, h2⟩

end Fhe.Props
