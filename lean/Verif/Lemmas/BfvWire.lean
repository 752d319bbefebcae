import Verif.Lemmas.BfvSer
import Verif.Lemmas.WireMsg
/-! # The sizes of encoded keys -/
namespace Fhe
open Wire

variable {b : Build} {n : Nat} {par : Par} {g : Prg}

theorem degree_le (hw : ParWF b n par.toBfvParameters) : par.degree ≤ 2 ^ 16 := by
  rw [hw.degree]; exact Nat.pow_le_pow_right (by norm_num) hw.le_16

theorem partSize_lt (hw : ParWF b n par.toBfvParameters) (h : par.moduli.length ≤ 2 ^ 10) : par.partSize < 2 ^ 30 := by
  have h1 := degree_le hw
  have : par.moduli.length * (8 * par.degree) ≤ 2 ^ 10 * (8 * 2 ^ 16) := Nat.mul_le_mul h (by omega)
  unfold BfvParameters.partSize
  omega

theorem partSize_lt' (hw : ParWF b n par.toBfvParameters) (h : par.moduli.length ≤ 2 ^ 32) : par.partSize < 2 ^ 64 := by
  have h1 := degree_le hw
  have : par.moduli.length * (8 * par.degree) ≤ 2 ^ 32 * (8 * 2 ^ 16) := Nat.mul_le_mul h (by omega)
  unfold BfvParameters.partSize
  omega

theorem le_partSize : 32 ≤ par.partSize := by unfold BfvParameters.partSize; omega

/-- A well-formed key has no more parts than there are moduli, or than there are bits in a modulus. -/
theorem KeySwitchingKey.length_le (hw : ParWF b n par.toBfvParameters) {k : KeySwitchingKey} (h : k.WellFormed g par) (hm : par.moduli.length ≤ 2 ^ 10) : k.c0.length ≤ 2 ^ 10 := by
  obtain ⟨l, ha, hl⟩ := AtLevel.ofContext hw h.ctx
  rcases h.count with ⟨-, e⟩ | ⟨h0, q, hq, -, e⟩
  · rw [e, ← hl, ha.length]; omega
  · have h1 := ha.wf.supported.range q (by rw [hl, hq]; simp)
    have h2 : RnsScaler.ceilLog2 q < 64 := by
      have := (RnsScaler.ceilLog2_spec (a := q) (by omega)).2
      exact (Nat.pow_lt_pow_iff_right (a := 2) (by norm_num)).1 (by omega)
    rw [e]
    have h3 : (RnsScaler.ceilLog2 q + k.logBase - 1) / k.logBase ≤ 64 := by
      apply Nat.le_of_lt_succ
      rw [Nat.div_lt_iff_lt_mul (by omega)]
      have : 64 ≤ 64 * k.logBase := by omega
      have : (64 + 1) * k.logBase = 64 * k.logBase + k.logBase := by ring
      show _ < (64 + 1) * _
      omega
    omega

theorem KeySwitchingKey.encode_lt (hw : ParWF b n par.toBfvParameters) {k : KeySwitchingKey} (h : k.WellFormed g par) (hm : par.moduli.length ≤ 2 ^ 10) {m : KeySwitchingKeyMsg}
    (hf : m.Fits par.partSize) (hl : m.c0.length = k.c0.length ∧ m.c1.length ≤ k.c1.length) : m.encode.length < 2 ^ 42 := by
  have h1 := partSize_lt hw hm
  have h2 := KeySwitchingKeyMsg.length_encode hf (by omega) le_partSize
  have h3 := length_le hw h hm
  have h4 := h.count1
  refine lt_of_le_of_lt h2 (lt_of_le_of_lt (Nat.mul_le_mul (show _ ≤ 2 * 2 ^ 10 + 4 by omega) (show _ ≤ 2 ^ 30 + 20 by omega)) (by norm_num))

/-- There is at most one Galois key per exponent. -/
theorem EvaluationKey.length_le (hw : ParWF b n par.toBfvParameters) {k : EvaluationKey} (h : k.WellFormed b g par) : k.gk.length ≤ 2 ^ 17 := by
  have h1 : ∀ x ∈ k.gk.map Prod.fst, x < 2 * par.degree := by
    intro x hx
    obtain ⟨y, hy, rfl⟩ := List.mem_map.1 hx
    obtain ⟨h2, h3, -⟩ := h.gk y.1 y.2 (lookup_of_mem h.nodup hy)
    rw [← h3]; exact h2.range.2
  have h2 : (k.gk.map Prod.fst).length ≤ (List.range (2 * par.degree)).length :=
    (List.Nodup.subperm h.nodup fun x hx => List.mem_range.2 (h1 x hx)).length_le
  rw [List.length_map, List.length_range] at h2
  have := degree_le hw
  omega

end Fhe
