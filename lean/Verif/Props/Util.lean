import Verif.Lemmas.Util
import Verif.Lemmas.Cbd
import Verif.Lemmas.Primes
import Verif.Lemmas.ZqVec
/-!
# Properties C09-C13 and C56: prime generation, bit packing, sampling, inverse
-/
namespace Fhe.Props
open Modulus

/-! ## C09 -/

/-- The primes that `generate_prime bits m ub` ranges over. -/
def IsCandidate (bits m ub p : Nat) : Prop := p.Prime ∧ 2 ^ (bits - 1) ≤ p ∧ p < 2 ^ bits ∧ p % m = 1 ∧ p < ub

/-- C09: for admissible arguments the search ends without underflow, and returns the largest prime with exactly `bits`
bits, congruent to 1 modulo `m` and below `ub`, or `None` when there is none. -/
theorem C09_generate_prime {bits m ub : Nat} (h10 : 10 ≤ bits) (h62 : bits ≤ 62) (hm : 2 ≤ m) (hub : 0 < ub)
    (hub2 : ub ≤ 2 ^ bits) :
    (∃ p, generatePrime bits m ub = some (some p) ∧ IsCandidate bits m ub p ∧
      ∀ q, IsCandidate bits m ub q → q ≤ p) ∨
    (generatePrime bits m ub = some none ∧ ∀ q, ¬ IsCandidate bits m ub q) := by
  have hpow : 2 ^ bits ≤ 2 ^ 62 := Nat.pow_le_pow_right (by norm_num) h62
  obtain ⟨a1, a2, a3⟩ := primeLoop1_spec (modulo := m) (bits := bits) (by omega) h62 (ub - 1) (by omega)
  obtain ⟨b1, b2, b3⟩ := primeLoop2_spec (modulo := m) (bits := bits) hm (by omega) h62
    (primeLoop1 m (64 - bits) (ub - 1)) (by omega) a2
  have hshift : 1 <<< bits ≥ ub := by rw [Nat.one_shiftLeft]; exact hub2
  have hgen : generatePrime bits m ub = if lz64 (primeLoop2 m (64 - bits) (primeLoop1 m (64 - bits) (ub - 1))) = 64 - bits ∧
      isPrime (primeLoop2 m (64 - bits) (primeLoop1 m (64 - bits) (ub - 1))) = true
      then some (some (primeLoop2 m (64 - bits) (primeLoop1 m (64 - bits) (ub - 1)))) else some none := by
    unfold generatePrime
    rw [if_neg (by omega)]
    simp only [check_eq hshift, subU_eq (show 1 ≤ ub by omega), check_eq (show m ≠ 0 by omega), Option.bind_eq_bind, Option.bind_some]
    rfl
  generalize primeLoop1 m (64 - bits) (ub - 1) = t1 at *
  generalize primeLoop2 m (64 - bits) t1 = t2 at *
  have hmax : ∀ q, IsCandidate bits m ub q → q ≤ t2 := by
    rintro q ⟨q1, q2, q3, q4, q5⟩
    by_contra hc
    rcases Nat.lt_or_ge t1 q with h | h
    · exact a3 q h (by omega) q4
    · exact b3 q (by omega) h q2 q4 q1
  have hz := lz_eq_iff (t := t2) (bits := bits) (by omega) (by omega) (by omega)
  rw [hgen]
  by_cases hc : 2 ^ (bits - 1) ≤ t2
  · left
    obtain ⟨c1, c2⟩ := b2 hc
    refine ⟨t2, if_pos ⟨hz.2 ⟨hc, by omega⟩, by simpa [isPrime] using c2⟩, ⟨c2, hc, by omega, c1, by omega⟩, hmax⟩
  · right
    refine ⟨if_neg (fun h => hc (hz.1 h.1).1), fun q hq => ?_⟩
    have := hmax q hq
    have := hq.2.1
    omega

/-- C09: outside of 10..=62 bits there is no search. -/
theorem C09_generate_prime_out_of_range {bits m ub : Nat} (h : ¬ (10 ≤ bits ∧ bits ≤ 62)) :
    generatePrime bits m ub = some none := if_pos h

/-- The hypothesis `0 < ub` is needed: `upper_bound = 0` makes `upper_bound - 1` underflow, which panics with overflow checks (without them see
`C83_generate_prime`). -/
theorem C09_upper_bound_zero_panics : generatePrime 20 2048 0 = none := by decide

/-- Non-vacuity of both outcomes. -/
example : IsCandidate 11 16 2048 1153 := ⟨by decide +kernel, by norm_num, by norm_num, by norm_num, by norm_num⟩
example : ∀ q, ¬ IsCandidate 10 1024 1024 q := by
  rintro q ⟨h1, h2, h3, h4, h5⟩
  rw [Nat.mod_eq_of_lt (by omega)] at h4
  omega

/-! ## C10 -/

/-- C10: the bytes spell the same bit string as the input (`⌈len·n/8⌉` bytes), and decoding the bytes yields the bit
string cut in `n`-bit words. -/
theorem C10_transcode_bytes {n : Nat} (hn : 0 < n) (hn2 : n ≤ 64) :
    (∀ a : List Nat, (∀ x ∈ a, x < 2 ^ n) → a.length * n < 2 ^ 64 →
      ∃ b, transcodeToBytes a n = some b ∧ IsRechunk n 8 a b) ∧
    (∀ b : List Nat, (∀ x ∈ b, x < 2 ^ 8) → b.length * 8 < 2 ^ 64 →
      ∃ a, transcodeFromBytes b n = some a ∧ IsRechunk 8 n b a) :=
  ⟨fun _ ha hl => transcodeToBytes_eq hn hn2 ha hl, fun _ hb hl => transcodeFromBytes_eq hn hn2 hb hl⟩

/-- C10: the round trip through bytes gives back the vector followed by zero words, and exactly the vector when its bit
length is a multiple of 8. -/
theorem C10_round_trip {n : Nat} (hn : 0 < n) (hn2 : n ≤ 64) {a : List Nat} (ha : ∀ x ∈ a, x < 2 ^ n)
    (hl : a.length * n + 8 < 2 ^ 64) :
    ∃ b c k, transcodeToBytes a n = some b ∧ transcodeFromBytes b n = some c ∧ c = a ++ List.replicate k 0 ∧
      k * n < n + 7 ∧ (8 ∣ a.length * n → c = a) := by
  obtain ⟨b, h1, h2⟩ := transcodeToBytes_eq hn hn2 ha (by omega)
  have hb : b.length * 8 < a.length * n + 8 := by
    have := h2.2.1
    omega
  obtain ⟨c, h3, h4⟩ := transcodeFromBytes_eq hn hn2 h2.1 (show b.length * 8 < 2 ^ 64 by omega)
  have hback := h2.back hn (by norm_num) ha h4
  refine ⟨b, c, c.length - a.length, h1, h3, hback, ?_, fun hd => h2.back_exact hn (by norm_num) ha h4 hd⟩
  have hc := h4.2.1
  have hlen : a.length ≤ c.length := by
    rw [hback, List.length_append]; omega
  have h5 : c.length * n ≤ b.length * 8 + n - 1 := by rw [hc]; exact Nat.div_mul_le_self _ _
  rw [Nat.sub_mul]
  omega

/-- The padding word does occur: one 9-bit word takes two bytes, which decode to two 9-bit words. -/
example : (transcodeToBytes [0x1FF] 9 = some [0xFF, 1]) ∧ transcodeFromBytes [0xFF, 1] 9 = some [0x1FF, 0] := by
  decide +kernel
example : ∀ x ∈ [5, 1023, 0, 77], x < 2 ^ 10 := by decide

/-! ## C11 -/

/-- C11: re-chunking preserves the bit string. -/
theorem C11_transcode_bidirectional {k n : Nat} (hk : 0 < k) (hk2 : k ≤ 64) (hn : 0 < n) (hn2 : n ≤ 64) {a : List Nat}
    (ha : ∀ x ∈ a, x < 2 ^ k) (hl : a.length * k < 2 ^ 64) :
    ∃ r, transcodeBidirectional a k n = some r ∧ IsRechunk k n a r :=
  transcodeBidirectional_eq hk hk2 hn hn2 ha hl

/-- C11: transcoding back restores the vector followed by zero words. -/
theorem C11_round_trip {k n : Nat} (hk : 0 < k) (hk2 : k ≤ 64) (hn : 0 < n) (hn2 : n ≤ 64) {a : List Nat}
    (ha : ∀ x ∈ a, x < 2 ^ k) (hl : a.length * k + n < 2 ^ 64) :
    ∃ r c z, transcodeBidirectional a k n = some r ∧ transcodeBidirectional r n k = some c ∧
      c = a ++ List.replicate z 0 ∧ (n ∣ a.length * k → c = a) := by
  obtain ⟨r, h1, h2⟩ := transcodeBidirectional_eq hk hk2 hn hn2 ha (by omega)
  have hb : r.length * n ≤ a.length * k + n - 1 := by rw [h2.2.1]; exact Nat.div_mul_le_self _ _
  obtain ⟨c, h3, h4⟩ := transcodeBidirectional_eq hn hn2 hk hk2 h2.1 (show r.length * n < 2 ^ 64 by omega)
  exact ⟨r, c, _, h1, h3, h2.back hk hn ha h4, fun hd => h2.back_exact hk hn ha h4 hd⟩

example : transcodeBidirectional [0x3FF, 1, 2] 10 7 = some [0x7F, 15, 0, 1, 0] := by decide +kernel

/-! ## C12 -/

/-- Stream offset of the block of bits used by sample `i`: consecutive blocks of `4v` bits when `v ≤ 16`, one pair of
words per sample otherwise. -/
def cbdBlock (v i : Nat) : Nat := if v ≤ 16 then 4 * v * i else 128 * i

/-- C12: a supported variance yields exactly `n` samples, the `i`-th being the number of ones in the `2v` random bits
starting at its block minus the number of ones in the following `2v` bits; the number of 64-bit words drawn is the
smallest possible for that layout. -/
theorem C12_sample_vec_cbd {n v : Nat} (h1 : 1 ≤ v) (h2 : v ≤ 32) {rng : Nat → Nat} (hr : ∀ i, rng i < 2 ^ 64) :
    ∃ words, sampleVecCbd n v rng = some (.ok ((List.range n).map (fun i =>
        (countBits (streamBit rng) (cbdBlock v i) (2 * v) : Int) - countBits (streamBit rng) (cbdBlock v i + 2 * v) (2 * v)), words)) ∧
      (v ≤ 16 → words = (4 * v * n + 63) / 64) ∧ (16 < v → words = 2 * n) := by
  unfold sampleVecCbd
  rw [if_neg (by omega)]
  by_cases hv : v ≤ 16
  · obtain ⟨pos', e1, e2, e3⟩ := cbdPoolLoop_eq h1 hv hr n 0 0 0 0 (by norm_num) rfl (by simp)
    refine ⟨pos', ?_, fun _ => by omega, fun h => by omega⟩
    rw [if_pos (by omega), e1]
    simp only [Option.bind_eq_bind, Option.bind_some, cbdBlock, if_pos hv, Nat.zero_add]
    rfl
  · refine ⟨2 * n, ?_, fun h => absurd h hv, fun _ => rfl⟩
    rw [if_neg (by omega), cbdPairLoop_eq h2 hr]
    simp only [cbdBlock, if_neg hv]
    simp

/-- C12: unsupported variances are refused. -/
theorem C12_error {n v : Nat} (h : ¬ (1 ≤ v ∧ v ≤ 32)) (rng : Nat → Nat) : sampleVecCbd n v rng = some (.error ()) :=
  if_pos h

/-- C12: blocks of distinct samples are disjoint, so every random bit is used at most once. -/
theorem C12_disjoint {v i j : Nat} (h2 : v ≤ 32) (hij : i < j) : cbdBlock v i + 4 * v ≤ cbdBlock v j := by
  unfold cbdBlock
  split
  · calc 4 * v * i + 4 * v = 4 * v * (i + 1) := by ring
      _ ≤ 4 * v * j := Nat.mul_le_mul_left _ hij
  · omega

/-- C12: every sample lies in `[-2v, 2v]`. -/
theorem C12_bounded {n v : Nat} (h1 : 1 ≤ v) (h2 : v ≤ 32) {rng : Nat → Nat} (hr : ∀ i, rng i < 2 ^ 64) {l : List Int} {w : Nat}
    (h : sampleVecCbd n v rng = some (.ok (l, w))) : l.length = n ∧ ∀ x ∈ l, -(2 * v : Int) ≤ x ∧ x ≤ 2 * v := by
  obtain ⟨words, e, -⟩ := C12_sample_vec_cbd (n := n) h1 h2 hr
  rw [e] at h
  cases h
  refine ⟨by simp, fun x hx => ?_⟩
  obtain ⟨i, -, rfl⟩ := List.mem_map.1 hx
  have := countBits_le (streamBit rng) (cbdBlock v i) (2 * v)
  have := countBits_le (streamBit rng) (cbdBlock v i + 2 * v) (2 * v)
  omega

/-- C12: the function of `4v` bits that a sample computes is centered binomial: out of the `2^(4v)` equally likely
patterns of its bits, exactly `choose (4v) (2v + k)` give the value `k`. -/
theorem C12_distribution {v : Nat} (h : v ≤ 32) (k : Int) (hk : -(2 * v : Int) ≤ k) :
    ((Finset.range (2 ^ (4 * v))).filter fun x =>
      (countBits x.testBit 0 (2 * v) : Int) - countBits x.testBit (2 * v) (2 * v) = k).card =
      (4 * v).choose ((2 * v + k).toNat) := by
  rw [← cbdSample_card h k hk]
  congr 1
  apply Finset.filter_congr
  intro x _
  rw [cbdSample_eq h]

example : sampleVecCbd 3 2 (fun i => if i = 0 then 0xF00F else 0) = some (.ok ([4, -4, 0], 1)) := by decide +kernel
example : ∀ i, (fun i => if i = 0 then 0xF00F else 0 : Nat → Nat) i < 2 ^ 64 := by
  intro i; simp only; split <;> norm_num

/-! ## C13 -/

/-- C13: serialization of a vector of reduced elements whose length is a multiple of 8 has the advertised length and is
inverted by deserialization. -/
theorem C13_serialize {cfg : Bool} {p : Nat} {m : Modulus} (hm : Modulus.new cfg p = some (.ok m)) {a : List Nat}
    (ha : ∀ x ∈ a, x < p) (h8 : 8 ∣ a.length) (hl : a.length < 2 ^ 57) :
    ∃ b, m.serializeVec a = some b ∧ m.serializationLength a.length = some b.length ∧ m.deserializeVec b = some a ∧
      8 * b.length = a.length * bitLen (p - 1) ∧ ∀ x ∈ b, x < 2 ^ 8 := by
  obtain ⟨h, rfl, -⟩ := WF_of_new hm
  have h2 := h.two_le
  have hlt := h.lt
  have hn : m.nbits = bitLen (m.p - 1) := by
    have : bitLen (m.p - 1) ≤ 62 := bitLen_le_iff.2 (by omega)
    unfold Modulus.nbits lz64; omega
  have hn1 : 0 < m.nbits := by rw [hn]; exact bitLen_pos (by omega)
  have hn2 : m.nbits ≤ 62 := by rw [hn]; exact bitLen_le_iff.2 (by omega)
  have ha' : ∀ x ∈ a, x < 2 ^ m.nbits := fun x hx => by
    have := ha x hx
    have := lt_two_pow_bitLen (m.p - 1)
    rw [hn]; omega
  have hbits : a.length * m.nbits ≤ 2 ^ 57 * 62 := Nat.mul_le_mul (by omega) hn2
  obtain ⟨b, c, k, e1, e2, -, -, e3⟩ := C10_round_trip hn1 (by omega) ha' (by omega)
  obtain ⟨b', e1', hr⟩ := (C10_transcode_bytes hn1 (by omega)).1 a ha' (by omega)
  rw [e1] at e1'
  obtain rfl := Option.some.inj e1'
  obtain ⟨d, hd⟩ := h8
  refine ⟨b, e1, ?_, ?_, ?_, hr.1⟩
  · unfold Modulus.serializationLength
    rw [check_eq (by omega), hr.2.1]
    simp only [Option.bind_eq_bind, Option.bind_some]
    show some _ = _
    congr 1
    rw [hd, show m.nbits * (8 * d) = 8 * (m.nbits * d) by ring, show 8 * d * m.nbits = 8 * (m.nbits * d) by ring]
    omega
  · rw [← e3 (by rw [hd, Nat.mul_assoc]; exact ⟨_, rfl⟩)]; exact e2
  · rw [hr.2.1, ← hn, hd, show 8 * d * m.nbits = 8 * (m.nbits * d) by ring]
    omega

/-- C13: arbitrary bytes decode to words below `2^bits(p-1)` ... -/
theorem C13_deserialize_range {cfg : Bool} {p : Nat} {m : Modulus} (hm : Modulus.new cfg p = some (.ok m)) {b : List Nat}
    (hb : ∀ x ∈ b, x < 2 ^ 8) (hl : b.length * 8 < 2 ^ 64) :
    ∃ a, m.deserializeVec b = some a ∧ ∀ x ∈ a, x < 2 ^ (bitLen (p - 1)) := by
  obtain ⟨h, rfl, -⟩ := WF_of_new hm
  have h2 := h.two_le
  have hlt := h.lt
  have hn : m.nbits = bitLen (m.p - 1) := by
    have : bitLen (m.p - 1) ≤ 62 := bitLen_le_iff.2 (by omega)
    unfold Modulus.nbits lz64; omega
  have hn1 : 0 < m.nbits := by rw [hn]; exact bitLen_pos (by omega)
  have hn2 : m.nbits ≤ 62 := by rw [hn]; exact bitLen_le_iff.2 (by omega)
  obtain ⟨a, e, hr⟩ := (C10_transcode_bytes hn1 (by omega)).2 b hb hl
  exact ⟨a, e, by rw [← hn]; exact hr.1⟩

/-- C13: ... which need not be reduced modulo `p`: for `p = 1153` eleven `0xFF` bytes decode to eight words 2047. -/
theorem C13_deserialize_not_reduced :
    ∃ m, Modulus.new true 1153 = some (.ok m) ∧
      m.deserializeVec (List.replicate 11 0xFF) = some (List.replicate 8 2047) ∧ ¬ 2047 < m.p := by
  obtain ⟨m, h, hp, -⟩ := new_eq_ok (cfg := true) (p := 1153) (by norm_num)
  refine ⟨m, h, ?_, by omega⟩
  unfold Modulus.deserializeVec Modulus.nbits
  rw [hp]
  decide +kernel

example : ∃ m : Modulus, Modulus.new true 1153 = some (.ok m) ∧ (∀ x ∈ List.replicate 8 1152, x < 1153) ∧
    8 ∣ (List.replicate 8 1152).length :=
  let ⟨m, h, _⟩ := new_eq_ok (cfg := true) (p := 1153) (by norm_num); ⟨m, h, by decide, by decide⟩

/-! ## C56 -/

/-- What is assumed of the extended gcd of the `num-bigint-dig` dependency: it returns the gcd and a Bezout coefficient
of its first argument, smaller than the second argument in absolute value. -/
def EgcdContract (egcd : Nat → Nat → Nat × Int) : Prop :=
  ∀ a p, 1 < p → (egcd a p).1 = Nat.gcd a p ∧ (∃ y, (a : Int) * (egcd a p).2 + p * y = Nat.gcd a p) ∧
    -(p : Int) < (egcd a p).2 ∧ (egcd a p).2 < p

/-- C56: the helper returns an inverse exactly for units. -/
theorem C56_inverse {egcd : Nat → Nat → Nat × Int} (hc : EgcdContract egcd) {a p : Nat} (hp : 1 < p) (hp2 : p < 2 ^ 64) :
    (Nat.gcd a p = 1 → ∃ b, inverse egcd a p = some b ∧ b < p ∧ a * b % p = 1) ∧
    (Nat.gcd a p ≠ 1 → inverse egcd a p = none) := by
  obtain ⟨c1, ⟨y, c2⟩, c3, c4⟩ := hc a p hp
  unfold inverse
  generalize egcd a p = r at *
  obtain ⟨d, x⟩ := r
  simp only at c1 c2 c3 c4 ⊢
  subst c1
  refine ⟨fun h => ?_, fun h => if_pos h⟩
  rw [if_neg (by simpa using h)]
  have key : ∀ z : Int, 0 ≤ z → z < p → (∃ y, (a : Int) * z + p * y = 1) →
      ∃ b, (if 0 ≤ z ∧ z < 2 ^ 64 then some z.toNat else none) = some b ∧ b < p ∧ a * b % p = 1 := by
    intro z h0 h1 ⟨y, hy⟩
    refine ⟨z.toNat, if_pos ⟨h0, by omega⟩, by omega, ?_⟩
    zify
    rw [Int.toNat_of_nonneg h0, show (a : Int) * z = 1 + p * (-y) by linarith, Int.add_mul_emod_self_left]
    exact Int.emod_eq_of_lt (by norm_num) (by omega)
  rw [h] at c2
  by_cases hx : x < 0
  · rw [if_pos hx]
    exact key (x + p) (by omega) (by omega) ⟨y - a, by rw [← Int.ofNat_one, ← c2]; ring⟩
  · rw [if_neg hx]
    exact key x (by omega) (by omega) ⟨y, by simpa using c2⟩

/-- An extended gcd meeting the contract exists. -/
theorem egcdContract_exists : EgcdContract fun a p => (Nat.gcd a p, Nat.gcdA a p % p) := by
  intro a p hp
  refine ⟨rfl, ⟨Nat.gcdB a p + a * (Nat.gcdA a p / p), ?_⟩, ?_, Int.emod_lt_of_pos _ (by omega)⟩
  · have h := Nat.gcd_eq_gcd_ab a p
    have h2 := Int.emod_add_mul_ediv (Nat.gcdA a p) p
    simp only
    rw [h]
    generalize Nat.gcdA a p % p = r at *
    generalize Nat.gcdA a p / p = q at *
    rw [← h2]; ring
  · have := Int.emod_nonneg (Nat.gcdA a p) (show (p : Int) ≠ 0 by omega)
    simp only
    omega

example : Nat.gcd 5 16 = 1 ∧ Nat.gcd 6 16 ≠ 1 := by decide

end Fhe.Props
