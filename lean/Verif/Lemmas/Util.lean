import Mathlib.Data.Nat.Digits.Lemmas
import Verif.Model.Util
import Verif.Spec.Bits
import Verif.Lemmas.Zq
/-! Lemmas about transcoding. -/
namespace Fhe

theorem maskBits_eq {n : Nat} (h : n ≤ 64) : maskBits n = 2 ^ n - 1 := by
  unfold maskBits
  rw [Nat.shiftRight_eq_div_pow]
  have hp : 2 ^ 64 = 2 ^ n * 2 ^ (64 - n) := by rw [← pow_add]; congr 1; omega
  have h1 : 0 < 2 ^ n := by positivity
  have h2 : 0 < 2 ^ (64 - n) := by positivity
  rw [hp]
  generalize 2 ^ n = A at *
  generalize 2 ^ (64 - n) = B at *
  obtain ⟨A, rfl⟩ : ∃ k, A = k + 1 := ⟨A - 1, by omega⟩
  rw [show (A + 1) * B - 1 = (B - 1) + B * A by rw [Nat.add_mul, Nat.mul_comm A B]; omega, Nat.add_mul_div_left _ _ h2, Nat.div_eq_of_lt (by omega)]
  omega

theorem and_maskBits {n x : Nat} (h : n ≤ 64) : x &&& maskBits n = x % 2 ^ n := by
  rw [maskBits_eq h, Nat.and_two_pow_sub_one_eq_mod]

/-- Invariant of the transcoding loops: `out` followed by the `nb`-bit accumulator `cur` spells, in base `2^outN`, the
number `V`, of `L` bits. -/
structure TInv (outN V L : Nat) (st : List Nat × Nat × Nat) : Prop where
  cur_lt : st.2.1 < 2 ^ st.2.2
  digits : ∀ x ∈ st.1, x < 2 ^ outN
  val : Nat.ofDigits (2 ^ outN) st.1 + 2 ^ (outN * st.1.length) * st.2.1 = V
  len : outN * st.1.length + st.2.2 = L

theorem drain_inv {outN : Nat} {emit : Nat → Nat} (ho : 0 < outN) (he : ∀ c, emit c = c % 2 ^ outN) {V L : Nat}
    (out : List Nat) (cur nb : Nat) (h : TInv outN V L (out, cur, nb)) :
    TInv outN V L (drain outN emit out cur nb) ∧ (drain outN emit out cur nb).2.2 < outN := by
  induction hn : nb using Nat.strong_induction_on generalizing out cur nb with
  | _ n ih =>
    subst hn
    rw [drain]
    by_cases hc : 0 < outN ∧ outN ≤ nb
    · rw [dif_pos hc]
      apply ih (nb - outN) (by omega) _ _ _ _ rfl
      obtain ⟨h1, h2, h3, h4⟩ := h
      simp only at h1 h2 h3 h4
      have hp : 0 < 2 ^ outN := by positivity
      constructor
      · show cur >>> outN < 2 ^ (nb - outN)
        rw [Nat.shiftRight_eq_div_pow, Nat.div_lt_iff_lt_mul hp, ← pow_add]
        rwa [show nb - outN + outN = nb by omega]
      · intro x hx
        rcases List.mem_append.1 hx with hx | hx
        · exact h2 x hx
        · rw [List.mem_singleton.1 hx, he]; exact Nat.mod_lt _ hp
      · show Nat.ofDigits _ (out ++ [emit cur]) + 2 ^ (outN * (out ++ [emit cur]).length) * (cur >>> outN) = V
        rw [Nat.ofDigits_append, Nat.ofDigits_singleton, List.length_append, List.length_singleton, Nat.shiftRight_eq_div_pow, he,
          ← pow_mul, Nat.mul_add, pow_add, Nat.mul_one, ← h3, Nat.add_assoc, Nat.mul_assoc, ← Nat.mul_add, Nat.mod_add_div]
      · show outN * (out ++ [emit cur]).length + (nb - outN) = L
        rw [List.length_append, List.length_singleton, Nat.mul_add]; omega
    · rw [dif_neg hc]
      exact ⟨h, by simp only; omega⟩

theorem transcodeLoop_inv {inN outN : Nat} {load : Nat → Panics Nat} {emit : Nat → Nat} (ho : 0 < outN) (ho2 : outN ≤ 64)
    (hi : inN ≤ 64) (he : ∀ c, emit c = c % 2 ^ outN) (a : List Nat) (ha : ∀ x ∈ a, x < 2 ^ inN)
    (hload : ∀ x ∈ a, load x = some x) {V L : Nat} (st : List Nat × Nat × Nat) (h : TInv outN V L st) (hnb : st.2.2 < outN) :
    ∃ st', transcodeLoop inN outN load emit a st = some st' ∧
      TInv outN (V + 2 ^ L * Nat.ofDigits (2 ^ inN) a) (L + inN * a.length) st' ∧ st'.2.2 < outN := by
  induction a generalizing st V L with
  | nil => exact ⟨st, rfl, by simpa [Nat.ofDigits] using h, hnb⟩
  | cons v a ih =>
    obtain ⟨out, cur, nb⟩ := st
    obtain ⟨h1, h2, h3, h4⟩ := h
    simp only at h1 h2 h3 h4 hnb
    have hv : v < 2 ^ inN := ha v (by simp)
    have hlt : v * 2 ^ nb < 2 ^ (nb + inN) := by
      rw [pow_add, Nat.mul_comm]; exact Nat.mul_lt_mul_of_pos_left hv (by positivity)
    have hsh : shl128 v nb = v * 2 ^ nb := by
      unfold shl128
      rw [Nat.shiftLeft_eq]
      exact Nat.mod_eq_of_lt (lt_of_lt_of_le hlt (Nat.pow_le_pow_right (by norm_num) (by omega)))
    have hor : cur ||| v * 2 ^ nb = cur + 2 ^ nb * v := by
      rw [Nat.or_comm, ← Nat.shiftLeft_eq, ← Nat.shiftLeft_add_eq_or_of_lt h1, Nat.shiftLeft_eq]; ring
    simp only [transcodeLoop, check_eq hnb, check_eq (show nb < 128 by omega), hload v (by simp), Option.bind_eq_bind,
      Option.bind_some, hsh, hor]
    have hinv : TInv outN (V + 2 ^ L * v) (L + inN) (out, cur + 2 ^ nb * v, nb + inN) := by
      constructor
      · show cur + 2 ^ nb * v < 2 ^ (nb + inN)
        rw [pow_add]
        calc cur + 2 ^ nb * v < 2 ^ nb + 2 ^ nb * v := by omega
          _ = 2 ^ nb * (v + 1) := by ring
          _ ≤ _ := Nat.mul_le_mul_left _ hv
      · exact h2
      · show _ + 2 ^ (outN * out.length) * (cur + 2 ^ nb * v) = V + 2 ^ L * v
        rw [← h3, ← h4, pow_add]; ring
      · show outN * out.length + (nb + inN) = L + inN
        omega
    obtain ⟨d1, d2⟩ := drain_inv ho he _ _ _ hinv
    obtain ⟨st', e1, e2, e3⟩ := ih (fun x hx => ha x (by simp [hx])) (fun x hx => hload x (by simp [hx])) _ d1 d2
    refine ⟨st', e1, ?_, e3⟩
    have eV : V + 2 ^ L * Nat.ofDigits (2 ^ inN) (v :: a) = V + 2 ^ L * v + 2 ^ (L + inN) * Nat.ofDigits (2 ^ inN) a := by
      rw [Nat.ofDigits_cons, pow_add]; ring
    have eL : L + inN * (v :: a).length = L + inN + inN * a.length := by
      rw [List.length_cons]; ring
    rw [eV, eL]
    exact e2

/-- The common tail: the result of the loop started on the empty accumulator. -/
theorem transcodeLoop_start {inN outN : Nat} {load : Nat → Panics Nat} {emit : Nat → Nat} (ho : 0 < outN) (ho2 : outN ≤ 64)
    (hi : inN ≤ 64) (he : ∀ c, emit c = c % 2 ^ outN) (a : List Nat) (ha : ∀ x ∈ a, x < 2 ^ inN)
    (hload : ∀ x ∈ a, load x = some x) :
    ∃ out cur nb, transcodeLoop inN outN load emit a ([], 0, 0) = some (out, cur, nb) ∧ nb < outN ∧ cur < 2 ^ nb ∧
      (∀ x ∈ out, x < 2 ^ outN) ∧ Nat.ofDigits (2 ^ outN) (out ++ [cur]) = Nat.ofDigits (2 ^ inN) a ∧
      outN * out.length + nb = a.length * inN := by
  obtain ⟨⟨out, cur, nb⟩, h1, h2, h3⟩ := transcodeLoop_inv (V := 0) (L := 0) ho ho2 hi he a ha hload ([], 0, 0)
    ⟨by simp, by simp, by simp [Nat.ofDigits], by simp⟩ ho
  obtain ⟨g1, g2, g3, g4⟩ := h2
  simp only [Nat.zero_add, pow_zero, Nat.one_mul] at g1 g2 g3 g4
  refine ⟨out, cur, nb, h1, h3, g1, g2, ?_, ?_⟩
  · rw [Nat.ofDigits_append, Nat.ofDigits_singleton, ← pow_mul]; exact g3
  · rw [g4, Nat.mul_comm]

theorem loadMasked_eq {n x : Nat} (hn : n ≤ 64) (hx : x < 2 ^ n) : loadMasked n x = some x := by
  have hb : bitLen x ≤ n := bitLen_le_iff.2 hx
  have : 64 - lz64 x ≤ n := by unfold lz64; omega
  unfold loadMasked
  simp only [check_eq this, Option.bind_eq_bind, Option.bind_some, and_maskBits hn, Nat.mod_eq_of_lt hx]
  rfl

theorem asU64_mask {n c : Nat} (hn : n ≤ 64) : asU64 (c &&& maskBits n) = c % 2 ^ n := by
  rw [and_maskBits hn, asU64]
  apply Nat.mod_eq_of_lt
  exact lt_of_lt_of_le (Nat.mod_lt _ (by positivity)) (Nat.pow_le_pow_right (by norm_num) hn)

theorem ceil_of_pos {q n r : Nat} (h1 : 0 < r) (h2 : r < n) : (n * q + r + n - 1) / n = q + 1 := by
  apply Nat.div_eq_of_lt_le
  · rw [Nat.mul_comm, Nat.mul_add]; omega
  · rw [Nat.add_mul, Nat.add_mul, Nat.mul_comm q]; omega
theorem ceil_of_zero {q n : Nat} (h2 : 0 < n) : (n * q + 0 + n - 1) / n = q := by
  apply Nat.div_eq_of_lt_le
  · rw [Nat.mul_comm]; omega
  · rw [Nat.add_mul, Nat.mul_comm q]; omega

theorem transcodeToBytes_eq {a : List Nat} {n : Nat} (hn : 0 < n) (hn2 : n ≤ 64) (ha : ∀ x ∈ a, x < 2 ^ n)
    (hl : a.length * n < 2 ^ 64) : ∃ r, transcodeToBytes a n = some r ∧ IsRechunk n 8 a r := by
  obtain ⟨out, cur, nb, h1, h2, h3, h4, h5, h6⟩ := transcodeLoop_start (load := loadMasked n) (emit := (· % 2 ^ 8))
    (show 0 < 8 by norm_num) (by norm_num) hn2 (fun _ => rfl) a ha (fun x hx => loadMasked_eq hn2 (ha x hx))
  have hcur : cur < 2 ^ 8 := lt_of_lt_of_le h3 (Nat.pow_le_pow_right (by norm_num) (by omega))
  simp only [transcodeToBytes, check_eq (And.intro hn hn2), mul64_eq hl, h1, Option.bind_eq_bind, Option.bind_some]
  by_cases hb : nb > 0
  · have hsz : (a.length * n + 7) / 8 = out.length + 1 := by
      rw [← h6]; exact ceil_of_pos hb h2
    rw [if_pos hb, hsz, subU_eq (by omega), check_eq h2]
    simp only [Option.bind_some, check_eq (show out.length = out.length + 1 - 1 by omega), Nat.mod_eq_of_lt hcur]
    refine ⟨_, rfl, ?_, ?_, h5⟩
    · intro x hx
      rcases List.mem_append.1 hx with hx | hx
      · exact h4 x hx
      · rw [List.mem_singleton.1 hx]; exact hcur
    · rw [List.length_append, List.length_singleton, ← hsz]; rfl
  · obtain rfl : nb = 0 := by omega
    obtain rfl : cur = 0 := by simpa using h3
    have hsz : (a.length * n + 7) / 8 = out.length := by
      rw [← h6]; exact ceil_of_zero (n := 8) (by norm_num)
    rw [if_neg hb, hsz, check_eq rfl]
    refine ⟨out, rfl, h4, hsz.symm, ?_⟩
    rw [← h5, Nat.ofDigits_append_zero]

theorem transcodeFromBytes_eq {b : List Nat} {n : Nat} (hn : 0 < n) (hn2 : n ≤ 64) (hb : ∀ x ∈ b, x < 2 ^ 8)
    (hl : b.length * 8 < 2 ^ 64) : ∃ r, transcodeFromBytes b n = some r ∧ IsRechunk 8 n b r := by
  obtain ⟨out, cur, nb, h1, h2, h3, h4, h5, h6⟩ := transcodeLoop_start (load := some)
    (emit := fun c => asU64 (c &&& maskBits n)) hn hn2 (show 8 ≤ 64 by norm_num) (fun _ => asU64_mask hn2) b hb (fun x hx => rfl)
  have hcurn : cur < 2 ^ n := lt_of_lt_of_le h3 (Nat.pow_le_pow_right (by norm_num) (by omega))
  have hcur : cur < 2 ^ 64 := lt_of_lt_of_le hcurn (Nat.pow_le_pow_right (by norm_num) hn2)
  simp only [transcodeFromBytes, check_eq (And.intro hn hn2), mul64_eq hl, h1, Option.bind_eq_bind, Option.bind_some]
  by_cases hb : nb > 0
  · have hsz : (b.length * 8 + n - 1) / n = out.length + 1 := by
      rw [← h6]; exact ceil_of_pos hb h2
    rw [if_pos hb, hsz, subU_eq (by omega)]
    simp only [Option.bind_some, check_eq (show out.length = out.length + 1 - 1 by omega), asU64, Nat.mod_eq_of_lt hcur]
    refine ⟨_, rfl, ?_, ?_, h5⟩
    · intro x hx
      rcases List.mem_append.1 hx with hx | hx
      · exact h4 x hx
      · rw [List.mem_singleton.1 hx]; exact hcurn
    · rw [List.length_append, List.length_singleton, ← hsz]
  · obtain rfl : nb = 0 := by omega
    obtain rfl : cur = 0 := by simpa using h3
    have hsz : (b.length * 8 + n - 1) / n = out.length := by
      rw [← h6]; exact ceil_of_zero hn
    rw [if_neg hb, hsz, check_eq rfl]
    refine ⟨out, rfl, h4, hsz.symm, ?_⟩
    rw [← h5, Nat.ofDigits_append_zero]

theorem transcodeBidirectional_eq {a : List Nat} {k n : Nat} (hk : 0 < k) (hk2 : k ≤ 64) (hn : 0 < n) (hn2 : n ≤ 64)
    (ha : ∀ x ∈ a, x < 2 ^ k) (hl : a.length * k < 2 ^ 64) :
    ∃ r, transcodeBidirectional a k n = some r ∧ IsRechunk k n a r := by
  obtain ⟨out, cur, nb, h1, h2, h3, h4, h5, h6⟩ := transcodeLoop_start (load := loadMasked k)
    (emit := fun c => asU64 (c &&& maskBits n)) hn hn2 hk2 (fun _ => asU64_mask hn2) a ha (fun x hx => loadMasked_eq hk2 (ha x hx))
  have hcurn : cur < 2 ^ n := lt_of_lt_of_le h3 (Nat.pow_le_pow_right (by norm_num) (by omega))
  have hcur : cur < 2 ^ 64 := lt_of_lt_of_le hcurn (Nat.pow_le_pow_right (by norm_num) hn2)
  simp only [transcodeBidirectional, check_eq (And.intro hn hn2), check_eq (And.intro hk hk2), mul64_eq hl, h1,
    Option.bind_eq_bind, Option.bind_some]
  by_cases hb : nb > 0
  · have hsz : (a.length * k + n - 1) / n = out.length + 1 := by
      rw [← h6]; exact ceil_of_pos hb h2
    rw [if_pos hb, hsz, subU_eq (by omega), check_eq h2]
    simp only [Option.bind_some, check_eq (show out.length = out.length + 1 - 1 by omega), asU64, Nat.mod_eq_of_lt hcur]
    refine ⟨_, rfl, ?_, ?_, h5⟩
    · intro x hx
      rcases List.mem_append.1 hx with hx | hx
      · exact h4 x hx
      · rw [List.mem_singleton.1 hx]; exact hcurn
    · rw [List.length_append, List.length_singleton, ← hsz]
  · obtain rfl : nb = 0 := by omega
    obtain rfl : cur = 0 := by simpa using h3
    have hsz : (a.length * k + n - 1) / n = out.length := by
      rw [← h6]; exact ceil_of_zero hn
    rw [if_neg hb, hsz, check_eq rfl]
    refine ⟨out, rfl, h4, hsz.symm, ?_⟩
    rw [← h5, Nat.ofDigits_append_zero]

/-- Re-chunking there and back pads with zero words. -/
theorem IsRechunk.back {k n : Nat} (hk : 0 < k) (hn : 0 < n) {a r s : List Nat} (ha : ∀ x ∈ a, x < 2 ^ k) (h1 : IsRechunk k n a r)
    (h2 : IsRechunk n k r s) : s = a ++ List.replicate (s.length - a.length) 0 := by
  obtain ⟨-, r2, r3⟩ := h1
  obtain ⟨s1, s2, s3⟩ := h2
  have hle : a.length ≤ s.length := by
    have h1 : a.length * k ≤ r.length * n := by
      rw [r2]
      have := Nat.div_add_mod (a.length * k + n - 1) n
      have := Nat.mod_lt (a.length * k + n - 1) hn
      rw [Nat.mul_comm _ n]; omega
    rw [s2, Nat.le_div_iff_mul_le hk]
    omega
  apply Nat.ofDigits_inj_of_len_eq (b := 2 ^ k) (Nat.one_lt_two_pow (by omega))
  · rw [List.length_append, List.length_replicate]; omega
  · exact s1
  · intro x hx
    rcases List.mem_append.1 hx with hx | hx
    · exact ha x hx
    · rw [(List.mem_replicate.1 hx).2]; positivity
  · rw [s3, r3, Nat.ofDigits_append_replicate_zero]

/-- The round trip is exact when the bit length is a multiple of the intermediate width. -/
theorem IsRechunk.back_exact {k n : Nat} (hk : 0 < k) (hn : 0 < n) {a r s : List Nat} (ha : ∀ x ∈ a, x < 2 ^ k) (h1 : IsRechunk k n a r)
    (h2 : IsRechunk n k r s) (hd : n ∣ a.length * k) : s = a := by
  have hs := h1.back hk hn ha h2
  obtain ⟨c, hc⟩ := hd
  have hr : r.length = c := by
    rw [h1.2.1, hc]; exact ceil_of_zero hn
  have : s.length = a.length := by
    rw [h2.2.1, hr, Nat.mul_comm, ← hc, Nat.mul_comm]; exact ceil_of_zero hk
  rw [this] at hs
  simpa using hs

end Fhe
