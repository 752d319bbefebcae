import Mathlib.NumberTheory.LegendreSymbol.Basic
import Verif.Lemmas.Ntt
/-! Construction of NTT operators. -/
namespace Fhe
namespace NttOperator

theorem log2_two_pow (n : Nat) : (2 ^ n).log2 = n := by
  rw [Nat.log2_eq_log_two]; exact Nat.log_pow (by norm_num) n

theorem supportsNtt_eq {p n : Nat} (h3 : 3 ≤ n) (hn : n ≤ 62) :
    supportsNtt p (2 ^ n) = some (decide (p % (2 * 2 ^ n) = 1 ∧ p.Prime)) := by
  have h8 : 8 ≤ 2 ^ n := by
    calc 8 = 2 ^ 3 := rfl
      _ ≤ 2 ^ n := Nat.pow_le_pow_right (by norm_num) h3
  have hle : 2 ^ n ≤ 2 ^ 62 := Nat.pow_le_pow_right (by norm_num) hn
  have hd : (2 ^ n <<< 1) % 2 ^ 64 = 2 * 2 ^ n := by
    rw [Nat.shiftLeft_eq, Nat.mod_eq_of_lt (by omega)]; ring
  unfold supportsNtt
  rw [check_eq ⟨h8, by rw [log2_two_pow]⟩]
  simp only [Option.bind_eq_bind, Option.bind_some, hd]
  rw [check_eq (by omega)]
  simp only [Option.bind_some, isPrime]
  rw [Bool.decide_and]; rfl

theorem supportsNtt_none {p n : Nat} (h : ¬ (8 ≤ n ∧ ∃ k, n = 2 ^ k)) : supportsNtt p n = none := by
  unfold supportsNtt
  rw [show check (n ≥ 8 ∧ n = 2 ^ n.log2) = none from if_neg fun ⟨h1, h2⟩ => h ⟨h1, _, h2⟩]; rfl

/-- An element of order exactly `2N`, `N` a power of two: its `N`-th power is `-1`. -/
def IsRoot (p N v : Nat) : Prop := v < p ∧ (v : ZMod p) ^ N = -1

theorem natCast_pow_eq_one {p v k : Nat} (hp : 1 < p) : v ^ k % p = 1 ↔ (v : ZMod p) ^ k = 1 := by
  rw [show ((v : ZMod p) ^ k = 1) ↔ ((v ^ k : Nat) : ZMod p) = ((1 : Nat) : ZMod p) by push_cast; rfl,
    ZMod.natCast_eq_natCast_iff', Nat.mod_eq_of_lt hp]

theorem isPrimitiveRoot_eq {m : Modulus} (hm : m.WF) (hp : m.p.Prime) {n : Nat} (h3 : 3 ≤ n) (hn : n ≤ 62)
    (hmod : m.p % (2 * 2 ^ n) = 1) {a : Nat} (ha : a < m.p) :
    ∃ b, isPrimitiveRoot a (2 * 2 ^ n) m = some b ∧ (b = true ↔ IsRoot m.p (2 ^ n) a) := by
  have : Fact m.p.Prime := ⟨hp⟩
  have h2 : 2 * 2 ^ n < m.p := by
    by_contra hc
    rcases Nat.lt_or_ge m.p (2 * 2 ^ n) with h | h
    · rw [Nat.mod_eq_of_lt h] at hmod; exact absurd hp.two_le (by omega)
    · have : m.p = 2 * 2 ^ n := by omega
      rw [this, Nat.mod_self] at hmod; omega
  have hhalf : (2 * 2 ^ n) >>> 1 = 2 ^ n := by rw [Nat.shiftRight_eq_div_pow]; omega
  have hdiv : 2 * 2 ^ n / 2 = 2 ^ n := by omega
  unfold isPrimitiveRoot
  rw [check_eq ha, hhalf, supportsNtt_eq h3 hn]
  simp only [Option.bind_eq_bind, Option.bind_some, hmod, hp, and_self, decide_true, hdiv,
    Modulus.pow_eq hm ha h2, Modulus.pow_eq hm ha (show 2 ^ n < m.p by omega)]
  rw [check_eq trivial]
  simp only [Option.bind_some]
  have hne : (-1 : ZMod m.p) ≠ 1 := by
    have : Fact (2 < m.p) := ⟨by have := Nat.one_le_two_pow (n := n); have : 8 ≤ 2 ^ n := by
                                    calc 8 = 2 ^ 3 := rfl
                                      _ ≤ 2 ^ n := Nat.pow_le_pow_right (by norm_num) h3
                                 omega⟩
    exact ZMod.neg_one_ne_one
  have key : ((a : ZMod m.p) ^ (2 * 2 ^ n) = 1 ∧ (a : ZMod m.p) ^ 2 ^ n ≠ 1) ↔ (a : ZMod m.p) ^ 2 ^ n = -1 := by
    rw [mul_comm 2, pow_mul]
    constructor
    · rintro ⟨h1, h2⟩
      rcases sq_eq_one_iff.1 h1 with h | h
      · exact absurd h h2
      · exact h
    · intro h; rw [h]; exact ⟨by ring, hne⟩
  by_cases h1 : a ^ (2 * 2 ^ n) % m.p = 1
  · rw [if_pos h1]
    refine ⟨_, rfl, ?_⟩
    rw [decide_eq_true_iff, Ne, natCast_pow_eq_one hp.one_lt]
    rw [natCast_pow_eq_one hp.one_lt] at h1
    constructor
    · intro h; exact ⟨ha, key.1 ⟨h1, h⟩⟩
    · rintro ⟨-, h⟩; exact (key.2 h).2
  · rw [if_neg h1]
    refine ⟨_, rfl, ?_⟩
    rw [natCast_pow_eq_one hp.one_lt] at h1
    constructor
    · intro h; cases h
    · rintro ⟨-, h⟩; exact absurd (key.2 h).1 h1

/-- Raising to the power `(p-1)/2N` turns exactly the quadratic non-residues into roots. -/
theorem isRoot_iff_nonsquare {p n x : Nat} (hp : p.Prime) (hmod : p % (2 * 2 ^ n) = 1) :
    IsRoot p (2 ^ n) (x ^ ((p - 1) / (2 * 2 ^ n)) % p) ↔ ¬ IsSquare (x : ZMod p) := by
  have : Fact p.Prime := ⟨hp⟩
  have hpos : 0 < 2 ^ n := by positivity
  have hdvd : 2 * 2 ^ n ∣ p - 1 := (Nat.modEq_iff_dvd' hp.one_le).1 (by
    rw [Nat.ModEq, hmod, Nat.mod_eq_of_lt (by omega)])
  obtain ⟨c, hc⟩ := hdvd
  have hcd : (p - 1) / (2 * 2 ^ n) = c := by rw [hc]; exact Nat.mul_div_cancel_left _ (by omega)
  have hp1 := hp.one_le
  have hpc : p = 2 * (c * 2 ^ n) + 1 := by
    have : p = 2 * 2 ^ n * c + 1 := by omega
    rw [this]; ring
  have h2 : p / 2 = c * 2 ^ n := by omega
  have hpow : (((x ^ c % p : Nat) : ZMod p)) ^ 2 ^ n = (x : ZMod p) ^ (p / 2) := by
    rw [h2, pow_mul, ZMod.natCast_mod, Nat.cast_pow]
  rw [hcd, IsRoot, hpow]
  have hp3 : 2 < p := by
    have h0 := hp.two_le
    omega
  have hne : (-1 : ZMod p) ≠ 1 := by
    have : Fact (2 < p) := ⟨hp3⟩
    exact ZMod.neg_one_ne_one
  by_cases h0 : (x : ZMod p) = 0
  · rw [h0, zero_pow (by omega)]
    constructor
    · rintro ⟨-, h⟩; exact absurd h.symm (by simp)
    · intro h; exact absurd ⟨0, by simp⟩ h
  · rw [ZMod.euler_criterion p h0]
    rcases ZMod.pow_div_two_eq_neg_one_or_one p h0 with h | h
    · rw [h]; constructor
      · rintro ⟨-, h⟩; exact absurd h.symm hne
      · intro h; exact absurd rfl h
    · rw [h]; exact ⟨fun _ => hne, fun _ => ⟨Nat.mod_lt _ hp.pos, rfl⟩⟩

theorem primitiveRootLoop_eq {m : Modulus} (hm : m.WF) (hp : m.p.Prime) {n : Nat} (h3 : 3 ≤ n) (hn : n ≤ 62)
    (hmod : m.p % (2 * 2 ^ n) = 1) {rng : Nat → Nat} (hr : ∀ i, rng i < m.p) (left i : Nat) :
    (∃ r, primitiveRootLoop (2 ^ n) m ((m.p - 1) / (2 * 2 ^ n)) rng left i = some (some r) ∧ IsRoot m.p (2 ^ n) r ∧
      ∃ j, i ≤ j ∧ j < i + left ∧ ¬ IsSquare (rng j : ZMod m.p) ∧ r = rng j ^ ((m.p - 1) / (2 * 2 ^ n)) % m.p) ∨
    (primitiveRootLoop (2 ^ n) m ((m.p - 1) / (2 * 2 ^ n)) rng left i = some none ∧
      ∀ j, i ≤ j → j < i + left → IsSquare (rng j : ZMod m.p)) := by
  have hlam : (m.p - 1) / (2 * 2 ^ n) < m.p := by
    have := Nat.div_le_self (m.p - 1) (2 * 2 ^ n)
    have := hm.pos; omega
  induction left generalizing i with
  | zero => exact Or.inr ⟨rfl, fun j h1 h2 => by omega⟩
  | succ left ih =>
    rw [primitiveRootLoop, Modulus.pow_eq hm (hr i) hlam]
    simp only [Option.bind_eq_bind, Option.bind_some]
    obtain ⟨b, hb, hbi⟩ := isPrimitiveRoot_eq hm hp h3 hn hmod
      (Nat.mod_lt (rng i ^ ((m.p - 1) / (2 * 2 ^ n))) hm.pos)
    rw [hb, Option.bind_some]
    cases b with
    | true =>
      left
      have hroot := hbi.1 rfl
      exact ⟨_, rfl, hroot, i, le_refl _, by omega, (isRoot_iff_nonsquare hp hmod).1 hroot, rfl⟩
    | false =>
      have hsq : IsSquare (rng i : ZMod m.p) := by
        by_contra hc
        have := hbi.2 ((isRoot_iff_nonsquare hp hmod).2 hc)
        cases this
      simp only [Bool.false_eq_true, if_false]
      rcases ih (i + 1) with ⟨r, h1, h2, j, h3, h4, h5⟩ | ⟨h1, h2⟩
      · exact Or.inl ⟨r, h1, h2, j, by omega, by omega, h5⟩
      · refine Or.inr ⟨h1, fun j h3 h4 => ?_⟩
        rcases Nat.eq_or_lt_of_le h3 with h | h
        · rw [← h]; exact hsq
        · exact h2 j h (by omega)

theorem successorsTake_eq {m : Modulus} (hm : m.WF) {w : Nat} (hw : w < m.p) (k x : Nat) (hx : x < m.p) :
    successorsTake (fun a => m.mul a w) k x = some (tab k fun i => x * w ^ i % m.p) := by
  induction k generalizing x with
  | zero => rfl
  | succ k ih =>
    rw [successorsTake, Modulus.mul_eq hm hx hw]
    simp only [Option.bind_eq_bind, Option.bind_some]
    rw [ih _ (Nat.mod_lt _ hm.pos), Option.bind_some]
    simp only [pure]
    congr 1
    rw [Nat.add_comm k 1, tab_add]
    show _ = (tab 1 fun i => x * w ^ i % m.p) ++ _
    have : tab 1 (fun i => x * w ^ i % m.p) = [x] := by
      simp [tab, Nat.mod_eq_of_lt hx]
    rw [this]
    congr 1
    apply tab_congr
    intro i _
    rw [Nat.mod_mul_mod, Nat.add_comm 1 i, pow_succ]
    congr 1; ring

theorem bitrev_shift {n i : Nat} (hn : n ≤ 62) : revBits 64 i >>> (lz64 (2 ^ n) + 1) = revBits n i := by
  have : lz64 (2 ^ n) + 1 = 64 - n := by
    unfold lz64 bitLen
    rw [if_neg (by positivity), log2_two_pow]; omega
  rw [this, Nat.shiftRight_eq_div_pow]
  have h := revBits_shift n (64 - n) i
  rwa [show n + (64 - n) = 64 by omega] at h

theorem table_eq {n : Nat} (hn : n ≤ 62) (g : Nat → Nat) :
    ((List.range (2 ^ n)).mapM fun i => (tab (2 ^ n) g)[revBits 64 i >>> (lz64 (2 ^ n) + 1)]?) =
      some (tab (2 ^ n) fun i => g (revBits n i)) := by
  rw [mapM_eq_some_map (g := fun i => g (revBits n i))]
  · rfl
  · intro i _
    rw [bitrev_shift hn, tab_get? _ (revBits_lt n i)]

theorem new_unsupported {dbg : Bool} {rng : Nat → Nat} {m : Modulus} {n : Nat} (h3 : 3 ≤ n) (hn : n ≤ 62)
    (h : ¬ (m.p % (2 * 2 ^ n) = 1 ∧ m.p.Prime)) : new dbg rng m (2 ^ n) = some none := by
  unfold new
  rw [supportsNtt_eq h3 hn]
  simp only [Option.bind_eq_bind, Option.bind_some, h, decide_false, if_true]; rfl

theorem new_bad_size {dbg : Bool} {rng : Nat → Nat} {m : Modulus} {size : Nat} (h : ¬ (8 ≤ size ∧ ∃ k, size = 2 ^ k)) :
    new dbg rng m size = none := by
  unfold new
  rw [supportsNtt_none h]; rfl

theorem n_lt_of_mod {p n : Nat} (hp2 : 2 ≤ p) (hlt : p < 2 ^ 62) (hmod : p % (2 * 2 ^ n) = 1) : n < 61 ∧ 2 * 2 ^ n < p := by
  have h2 : 2 * 2 ^ n < p := by
    by_contra hc
    rcases Nat.lt_or_ge p (2 * 2 ^ n) with h | h
    · rw [Nat.mod_eq_of_lt h] at hmod; omega
    · have : p = 2 * 2 ^ n := by omega
      rw [this, Nat.mod_self] at hmod; omega
  refine ⟨?_, h2⟩
  by_contra hc
  have : 2 ^ 61 ≤ 2 ^ n := Nat.pow_le_pow_right (by norm_num) (by omega)
  omega

theorem new_supported_root {dbg : Bool} {rng : Nat → Nat} {m : Modulus} (hm : m.WF) {n : Nat} (h3 : 3 ≤ n) (hn : n ≤ 62)
    (hmod : m.p % (2 * 2 ^ n) = 1) (hp : m.p.Prime) (hr : ∀ i, rng i < m.p) :
    ((∃ j < 100, ¬ IsSquare (rng j : ZMod m.p)) ∧
      ∃ op ω ωi, new dbg rng m (2 ^ n) = some (some op) ∧ op.WF n ω ωi ∧ op.p = m ∧ ∃ j, ω = rng j ^ ((m.p - 1) / (2 * 2 ^ n)) % m.p) ∨
    ((∀ j < 100, IsSquare (rng j : ZMod m.p)) ∧ new dbg rng m (2 ^ n) = if dbg then none else some none) := by
  have : Fact m.p.Prime := ⟨hp⟩
  obtain ⟨hn61, h2⟩ := n_lt_of_mod hp.two_le hm.lt hmod
  have hpos : 0 < 2 ^ n := by positivity
  have hs0 : ((2 ^ n : Nat) : ZMod m.p) ≠ 0 := by
    rw [Ne, ZMod.natCast_eq_zero_iff]
    intro h; exact absurd (Nat.le_of_dvd hpos h) (by omega)
  have hinv : ∀ a, a ≠ 0 → a < m.p → ((a ^ (m.p - 2) % m.p : Nat) : ZMod m.p) * a = 1 := by
    intro a h0 h1
    have := Modulus.fermat hp h0 h1
    rw [← Nat.cast_mul, ← Nat.cast_one, ZMod.natCast_eq_natCast_iff', Nat.mul_comm]
    exact this
  unfold new primitiveRoot
  rw [supportsNtt_eq h3 hn, Modulus.inv_eq_some hm hp (by omega) (show 2 ^ n < m.p by omega)]
  simp only [Option.bind_eq_bind, Option.bind_some, hmod, hp, and_self, decide_true, Bool.true_eq_false, if_false]
  rw [check_eq trivial, Option.bind_some]
  rcases primitiveRootLoop_eq hm hp h3 hn hmod hr 100 0 with ⟨ω, h1, ⟨hω, hroot⟩, j, -, h4, h5, h6⟩ | ⟨h1, h4⟩
  · left
    refine ⟨⟨j, by omega, h5⟩, ?_⟩
    have hω0 : ω ≠ 0 := by
      rintro rfl
      rw [Nat.cast_zero, zero_pow (by omega)] at hroot
      exact absurd hroot.symm (by simp)
    rw [h1, Option.bind_some]
    simp only [pure, Option.bind_some]
    rw [Modulus.inv_eq_some hm hp hω0 hω, Option.bind_some]
    have hωi : ω ^ (m.p - 2) % m.p < m.p := Nat.mod_lt _ hm.pos
    have hωinv := hinv ω hω0 hω
    generalize ω ^ (m.p - 2) % m.p = ωi at hωi hωinv
    have hsinv := hinv (2 ^ n) (by omega) (by omega)
    have hsl : (2 ^ n) ^ (m.p - 2) % m.p < m.p := Nat.mod_lt _ hm.pos
    generalize (2 ^ n) ^ (m.p - 2) % m.p = si at hsinv hsl
    simp only [successorsTake_eq hm hω _ _ hp.one_lt, successorsTake_eq hm hωi _ _ hωi, Option.bind_some,
      table_eq (show n ≤ 62 by omega)]
    have hm1 : ∀ x ∈ tab (2 ^ n) (fun i => 1 * ω ^ revBits n i % m.p), x < m.p := by
      intro x hx
      obtain ⟨i, -, rfl⟩ := mem_tab.1 hx
      exact Nat.mod_lt _ hm.pos
    have hm2 : ∀ x ∈ tab (2 ^ n) (fun i => ωi * ωi ^ revBits n i % m.p), x < m.p := by
      intro x hx
      obtain ⟨i, -, rfl⟩ := mem_tab.1 hx
      exact Nat.mod_lt _ hm.pos
    have hlt := hm.lt
    simp only [Modulus.shoupVec_eq hm hm1, Modulus.shoupVec_eq hm hm2, mul64_eq (show m.p * 2 < 2 ^ 64 by omega),
      Modulus.shoup_eq hm hsl, Option.bind_some]
    refine ⟨_, ω, ωi, rfl, ?_, rfl, j, h6⟩
    exact {
      modulus := hm, prime := hp, size := rfl, three_le := h3, n_lt := by omega, twice := Nat.mul_comm _ _
      ω_lt := hω, ωi_lt := hωi, root := hroot, inv := hωinv
      omegas := tab_congr fun i _ => by rw [Nat.one_mul]
      omegasShoup := Modulus.shoupVec_eq hm hm1
      zetas := tab_congr fun i _ => by rw [pow_succ, Nat.mul_comm]
      zetasShoup := Modulus.shoupVec_eq hm hm2
      sizeInv_lt := hsl, sizeInv := by rw [← hsinv]; push_cast; rfl
      sizeInvShoup := Modulus.shoup_eq hm hsl }
  · right
    refine ⟨fun j hj => h4 j (Nat.zero_le _) (by omega), ?_⟩
    rw [h1, Option.bind_some]
    cases dbg with
    | true => rfl
    | false =>
      simp only [check_eq trivial, Option.bind_some, pure, Modulus.inv_eq_none (Or.inr rfl)]
      rfl

theorem new_supported {dbg : Bool} {rng : Nat → Nat} {m : Modulus} (hm : m.WF) {n : Nat} (h3 : 3 ≤ n) (hn : n ≤ 62)
    (hmod : m.p % (2 * 2 ^ n) = 1) (hp : m.p.Prime) (hr : ∀ i, rng i < m.p) :
    ((∃ j < 100, ¬ IsSquare (rng j : ZMod m.p)) ∧
      ∃ op ω ωi, new dbg rng m (2 ^ n) = some (some op) ∧ op.WF n ω ωi ∧ op.p = m) ∨
    ((∀ j < 100, IsSquare (rng j : ZMod m.p)) ∧ new dbg rng m (2 ^ n) = if dbg then none else some none) := by
  rcases new_supported_root (dbg := dbg) hm h3 hn hmod hp hr with ⟨h, op, ω, ωi, h1, h2, h4, -⟩ | h
  · exact Or.inl ⟨h, op, ω, ωi, h1, h2, h4⟩
  · exact Or.inr h

/-- Every operator the constructor returns is well formed. -/
theorem WF_of_new {dbg : Bool} {rng : Nat → Nat} {m : Modulus} (hm : m.WF) {size : Nat} (hr : ∀ i, rng i < m.p) {op : NttOperator}
    (h : new dbg rng m size = some (some op)) : ∃ n ω ωi, op.WF n ω ωi ∧ op.p = m ∧ size = 2 ^ n := by
  by_cases hs : 8 ≤ size ∧ ∃ k, size = 2 ^ k
  · obtain ⟨h8, n, rfl⟩ := hs
    have h3 : 3 ≤ n := by
      by_contra hc
      have : 2 ^ n < 2 ^ 3 := Nat.pow_lt_pow_right (by norm_num) (by omega)
      omega
    by_cases hn : n ≤ 62
    · by_cases hsup : m.p % (2 * 2 ^ n) = 1 ∧ m.p.Prime
      · rcases new_supported (dbg := dbg) hm h3 hn hsup.1 hsup.2 hr with ⟨-, op', ω, ωi, h1, h2, h3⟩ | ⟨-, h1⟩
        · rw [h1] at h
          obtain rfl : op' = op := by simpa using h
          exact ⟨n, ω, ωi, h2, h3, rfl⟩
        · rw [h1] at h; cases dbg <;> simp at h
      · rw [new_unsupported h3 hn hsup] at h; simp at h
    · exfalso
      unfold new supportsNtt at h
      have hd : (2 ^ n <<< 1) % 2 ^ 64 = 0 := by
        rw [Nat.shiftLeft_eq, ← pow_succ]
        exact Nat.mod_eq_zero_of_dvd (pow_dvd_pow 2 (by omega))
      rw [check_eq ⟨h8, by rw [log2_two_pow]⟩] at h
      simp only [Option.bind_eq_bind, Option.bind_some, hd] at h
      simp [check] at h
  · rw [new_bad_size hs] at h; cases h

end NttOperator
end Fhe
