import Verif.Lemmas.Sampling
import Verif.Props.BfvCipher
/-!
# The joint distribution of sampled vectors
-/
namespace Fhe.Props
open Finset ParamsBuilder

open scoped Classical in
/-- C71: out of all `2 ^ (64 W)` equally likely choices of the random words, the fraction that gives a vector is the product, over its entries, of the probabilities of the centered binomial distribution:
the entries are independent. -/
theorem C71_independent {n v W : Nat} (h1 : 1 ≤ v) (h2 : v ≤ 32) (hW : if v ≤ 16 then 4 * v * n ≤ 64 * W else 2 * n ≤ W) {t : Fin n → Int} (ht : ∀ i, -(2 * v : Int) ≤ t i) :
    (univ.filter fun w : Fin W → Fin (2 ^ 64) => ∃ k, sampleVecCbd n v (wordsOf w) = some (Except.ok (List.ofFn t, k))).card * 2 ^ (n * (4 * v)) =
      2 ^ (64 * W) * ∏ i, (4 * v).choose ((2 * v + t i).toNat) := by

  have hlt : ∀ (i : Fin n) (j : Nat), j < 4 * v → cbdBlock v i + j < 64 * W := fun i j hj => by
    have := i.isLt
    unfold cbdBlock
    split at hW
    · rw [if_pos (by assumption)]
      have : 4 * v * (i + 1) ≤ 4 * v * n := Nat.mul_le_mul_left _ (by omega)
      rw [Nat.mul_add] at this; omega
    · rw [if_neg (by assumption)]; omega
  let β : Fin n × Fin (4 * v) → Fin (64 * W) := fun p => ⟨cbdBlock v p.1 + p.2, hlt p.1 p.2 p.2.isLt⟩
  have hβ : Function.Injective β := by
    rintro ⟨i, j⟩ ⟨i', j'⟩ h
    have h : cbdBlock v i + j = cbdBlock v i' + j' := congrArg Fin.val h
    have := j.isLt
    have := j'.isLt
    have hi : i = i' := by
      rcases lt_trichotomy i.1 i'.1 with hl | hl | hl
      · have := C12_disjoint h2 hl; omega
      · exact Fin.ext hl
      · have := C12_disjoint h2 hl; omega
    subst hi
    exact Prod.ext rfl (Fin.ext (by simpa using h))
  have := card_blocks β hβ fun i g => (countBits (fun j => if h : j < 4 * v then g ⟨j, h⟩ else false) 0 (2 * v) : Int) -
      countBits (fun j => if h : j < 4 * v then g ⟨j, h⟩ else false) (2 * v) (2 * v) = t i
  rw [Fintype.card_fin, Fintype.card_fin, Fintype.card_fin, Finset.prod_congr rfl fun i _ => card_pattern h2 (t i) (ht i)] at this
  rw [← this]
  congr 1
  refine Finset.card_equiv (Equiv.ofBijective _ bitsOf_bijective) fun w => ?_
  rw [mem_filter, mem_filter]
  refine and_congr (by simp) ?_
  obtain ⟨k, hk, -⟩ := C12_sample_vec_cbd (n := n) h1 h2 (wordsOf_lt w)
  rw [hk]
  have hbit : ∀ (i : Fin n) (a : Nat), a + 2 * v ≤ 4 * v → countBits (fun j => if h : j < 4 * v then (Equiv.ofBijective _ bitsOf_bijective) w (β (i, ⟨j, h⟩)) else false) a (2 * v) =
      countBits (streamBit (wordsOf w)) (cbdBlock v i + a) (2 * v) := fun i a ha => countBits_congr fun j hj => by
    rw [dif_pos (by omega)]
    show streamBit (wordsOf w) (cbdBlock v i + (a + j)) = _
    rw [Nat.add_assoc]
  have he : List.ofFn t = (List.range n).map (fun i => (countBits (streamBit (wordsOf w)) (cbdBlock v i) (2 * v) : Int) - countBits (streamBit (wordsOf w)) (cbdBlock v i + 2 * v) (2 * v)) ↔
      ∀ i : Fin n, (countBits (streamBit (wordsOf w)) (cbdBlock v i + 0) (2 * v) : Int) - countBits (streamBit (wordsOf w)) (cbdBlock v i + 2 * v) (2 * v) = t i := by
    constructor
    · intro h i
      have := congrArg (fun l => l[i.1]?) h
      simpa [i.isLt] using this.symm
    · intro h
      refine List.ext_getElem (by simp) fun i h1 h2 => ?_
      simpa using (h ⟨i, by simpa using h1⟩).symm
  constructor
  · rintro ⟨k', h⟩
    simp only [Option.some.injEq, Except.ok.injEq, Prod.mk.injEq] at h
    intro i
    rw [hbit i 0 (by omega), hbit i (2 * v) (by omega)]
    exact he.1 h.1.symm i
  · intro h
    refine ⟨k, ?_⟩
    rw [he.2 fun i => ?_]
    have := h i
    rw [hbit i 0 (by omega), hbit i (2 * v) (by omega)] at this
    exact this

open scoped Classical in
/-- C71: the same for the coefficients of a secret key. -/
theorem C71_secret_key {b : Build} {st : ParamsBuilder} {par : Par} (hb : b.OK) (h : build b st = Res.ok par.toBfvParameters) {W : Nat}
    (hW : if par.variance ≤ 16 then 4 * par.variance * par.degree ≤ 64 * W else 2 * par.degree ≤ W) {t : Fin par.degree → Int} (ht : ∀ i, -(2 * par.variance : Int) ≤ t i) :
    (univ.filter fun w : Fin W → Fin (2 ^ 64) => SecretKey.random par (wordsOf w) = some { par, coeffs := List.ofFn t }).card * 2 ^ (par.degree * (4 * par.variance)) =
      2 ^ (64 * W) * ∏ i, (4 * par.variance).choose ((2 * par.variance + t i).toNat) := by
  obtain ⟨n, hw, -⟩ := build_inv hb h
  rw [← C71_independent hw.variance.1 hw.variance.2 hW ht]
  congr 2
  refine Finset.filter_congr fun w _ => ?_
  obtain ⟨k, hk, -⟩ := C12_sample_vec_cbd (n := par.degree) hw.variance.1 hw.variance.2 (wordsOf_lt w)
  unfold SecretKey.random
  rw [hk]
  constructor
  · intro h
    simp only [Option.bind_eq_bind, Option.bind_some, pure, Option.some.injEq, SecretKey.mk.injEq, true_and] at h
    exact ⟨k, by rw [h]⟩
  · rintro ⟨k', h⟩
    simp only [Option.some.injEq, Except.ok.injEq, Prod.mk.injEq] at h
    simp only [Option.bind_eq_bind, Option.bind_some, pure, h.1]

/-- C71: every entry has mean zero, its variance is the number asked for, and different entries are uncorrelated: sums over all choices of the random words. -/
theorem C71_moments {n v W i j : Nat} (h1 : 1 ≤ v) (h2 : v ≤ 32) (hW : if v ≤ 16 then 4 * v * n ≤ 64 * W else 2 * n ≤ W) (hi : i < n) (hj : j < n) :
    ∑ w : Fin W → Fin (2 ^ 64), entry n v w i = 0 ∧ ∑ w : Fin W → Fin (2 ^ 64), entry n v w i * entry n v w j = if i = j then (v : Int) * Fintype.card (Fin W → Fin (2 ^ 64)) else 0 := by
  refine ⟨sum_entry h1 h2 hW hi, ?_⟩
  rw [sum_entry_mul h1 h2 hW hi hj, Fintype.card_fun, Fintype.card_fin, Fintype.card_fin, ← pow_mul]
  push_cast
  rfl

/-- Three samples of variance 2 use one word. -/
example : (if 2 ≤ 16 then 4 * 2 * 3 ≤ 64 * 1 else 2 * 3 ≤ 1) ∧ (∀ i, -(2 * 2 : Int) ≤ ![4, -4, 0] i) ∧ ∃ w : Fin 1 → Fin (2 ^ 64), sampleVecCbd 3 2 (wordsOf w) = some (.ok (List.ofFn ![4, -4, 0], 1)) ∧ entry 3 2 w 1 = -4 :=
  ⟨by decide, by decide, fun _ => 0xF00F, by decide +kernel, by decide +kernel⟩

end Fhe.Props
