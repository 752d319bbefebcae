import Mathlib.Data.Fintype.Pi
import Mathlib.Data.Fintype.BigOperators
import Mathlib.Logic.Equiv.Basic
import Verif.Props.Util
import Verif.Spec.Sampling
/-!
# Counting the streams of words that give a vector of samples
-/
namespace Fhe
open Finset

/-- Among the assignments of bits to a finite set of positions, those that satisfy a condition on each of some disjoint blocks. -/
theorem card_blocks {ι κ K : Type} [Fintype ι] [DecidableEq ι] [Fintype κ] [DecidableEq κ] [Fintype K] [DecidableEq K] (β : ι × κ → K) (hβ : Function.Injective β)
    (P : ι → (κ → Bool) → Prop) [∀ i, DecidablePred (P i)] [DecidablePred fun f : K → Bool => ∀ i, P i fun j => f (β (i, j))] :
    (univ.filter fun f : K → Bool => ∀ i, P i fun j => f (β (i, j))).card * 2 ^ (Fintype.card ι * Fintype.card κ) = 2 ^ Fintype.card K * ∏ i, (univ.filter (P i)).card := by
  classical
  let E : (K → Bool) ≃ (ι → κ → Bool) × ({k // ¬ k ∈ Set.range β} → Bool) :=
    (Equiv.piEquivPiSubtypeProd (fun k => k ∈ Set.range β) fun _ => Bool).trans
      (Equiv.prodCongr ((Equiv.arrowCongr (Equiv.ofInjective β hβ).symm (Equiv.refl Bool)).trans (Equiv.curry ι κ Bool)) (Equiv.refl _))
  have hE : ∀ f i j, (E f).1 i j = f (β (i, j)) := fun f i j => rfl
  have e1 : (univ.filter fun f : K → Bool => ∀ i, P i fun j => f (β (i, j))).card =
      (Fintype.piFinset (fun i => univ.filter (P i)) ×ˢ (univ : Finset ({k // ¬ k ∈ Set.range β} → Bool))).card := by
    refine Finset.card_equiv E fun f => ?_
    simp only [mem_filter, mem_univ, true_and, mem_product, Fintype.mem_piFinset, and_true]
    exact Iff.rfl
  have e2 : 2 ^ Fintype.card K = 2 ^ (Fintype.card ι * Fintype.card κ) * Fintype.card ({k // ¬ k ∈ Set.range β} → Bool) := by
    have := Fintype.card_congr E
    rw [Fintype.card_prod, Fintype.card_fun, Fintype.card_bool, Fintype.card_fun, Fintype.card_fun, Fintype.card_bool, ← pow_mul, Nat.mul_comm (Fintype.card κ)] at this
    exact this
  rw [e1, card_product, Fintype.card_piFinset, card_univ, e2]
  ring

/-- The bits of some words. -/
def bitsOf {W : Nat} (w : Fin W → Fin (2 ^ 64)) : Fin (64 * W) → Bool := fun k => streamBit (wordsOf w) k

theorem bitsOf_bijective {W : Nat} : Function.Bijective (bitsOf (W := W)) := by
  rw [Fintype.bijective_iff_injective_and_card]
  refine ⟨fun w w' h => funext fun i => Fin.ext (Nat.eq_of_testBit_eq fun k => ?_), ?_⟩
  · by_cases hk : k < 64
    · have := congrFun h ⟨64 * i + k, by have := i.isLt; omega⟩
      unfold bitsOf streamBit wordsOf at this
      have e1 : (64 * i.1 + k) / 64 = i := by omega
      have e2 : (64 * i.1 + k) % 64 = k := by omega
      simpa only [e1, e2, i.isLt, dite_true] using this
    · have hh : ∀ x : Fin (2 ^ 64), x.1.testBit k = false := fun x => Nat.testBit_lt_two_pow (lt_of_lt_of_le x.isLt (Nat.pow_le_pow_right (by omega) (by omega)))
      rw [hh, hh]
  · rw [Fintype.card_fun, Fintype.card_fun, Fintype.card_fin, Fintype.card_fin, Fintype.card_fin, Fintype.card_bool, ← pow_mul]

theorem wordsOf_lt {W : Nat} (w : Fin W → Fin (2 ^ 64)) (i : Nat) : wordsOf w i < 2 ^ 64 := by
  unfold wordsOf; split
  · exact (w _).isLt
  · norm_num

/-- The patterns of `4v` bits that give a value. -/
theorem card_pattern {v : Nat} (h : v ≤ 32) (k : Int) (hk : -(2 * v : Int) ≤ k) :
    (univ.filter fun g : Fin (4 * v) → Bool => (countBits (fun j => if h : j < 4 * v then g ⟨j, h⟩ else false) 0 (2 * v) : Int) -
      countBits (fun j => if h : j < 4 * v then g ⟨j, h⟩ else false) (2 * v) (2 * v) = k).card = (4 * v).choose ((2 * v + k).toNat) := by
  rw [← Props.C12_distribution h k hk]
  symm
  refine Finset.card_bij' (fun x _ => fun j => x.testBit j) (fun g _ => Nat.ofBits g) ?_ ?_ ?_ ?_
  · intro x hx
    have hlt := Finset.mem_range.1 (mem_filter.1 hx).1
    rw [mem_filter]
    refine ⟨mem_univ _, ?_⟩
    rw [countBits_congr (s := 0) (g := x.testBit) (t := 0) fun j hj => ?_, countBits_congr (s := 2 * v) (g := x.testBit) (t := 2 * v) fun j hj => ?_]
    · exact (mem_filter.1 hx).2
    · rw [dif_pos (by omega)]
    · rw [dif_pos (by omega)]
  · intro g hg
    rw [mem_filter, Finset.mem_range]
    refine ⟨Nat.ofBits_lt_two_pow g, ?_⟩
    rw [show (Nat.ofBits g).testBit = fun j => if h : j < 4 * v then g ⟨j, h⟩ else false from funext fun j => Nat.testBit_ofBits g]
    exact (mem_filter.1 hg).2
  · intro x hx
    rw [Nat.ofBits_testBit, Nat.mod_eq_of_lt (Finset.mem_range.1 (mem_filter.1 hx).1)]
  · intro g _
    funext j
    rw [Nat.testBit_ofBits_lt g j j.isLt]

/-- A bit as a sign. -/
def sgn (b : Bool) : Int := if b then 1 else -1

theorem sum_sgn {K : Type} [Fintype K] [DecidableEq K] (p : K) : ∑ f : K → Bool, sgn (f p) = 0 := by
  refine Finset.sum_involution (fun f _ => Function.update f p (!f p)) (fun f _ => ?_) (fun f _ _ h => ?_) (fun _ _ => mem_univ _) fun f _ => ?_
  · rw [Function.update_self]; cases f p <;> rfl
  · have := congrFun h p
    rw [Function.update_self] at this
    cases hh : f p <;> rw [hh] at this <;> cases this
  · simp

theorem sum_sgn_mul {K : Type} [Fintype K] [DecidableEq K] (p q : K) : ∑ f : K → Bool, sgn (f p) * sgn (f q) = if p = q then 2 ^ Fintype.card K else 0 := by
  split
  · rename_i h
    subst h
    rw [Finset.sum_congr rfl fun f _ => show sgn (f p) * sgn (f p) = 1 by cases f p <;> rfl, Finset.sum_const, card_univ, Fintype.card_fun, Fintype.card_bool]
    simp
  · rename_i h
    refine Finset.sum_involution (fun f _ => Function.update f p (!f p)) (fun f _ => ?_) (fun f _ _ h => ?_) (fun _ _ => mem_univ _) fun f _ => ?_
    · rw [Function.update_self, Function.update_of_ne (Ne.symm h), ← add_mul]
      cases f p <;> simp [sgn]
    · have := congrFun h p
      rw [Function.update_self] at this
      cases hh : f p <;> rw [hh] at this <;> cases this
    · simp

/-- Twice a number of set bits. -/
theorem two_countBits (f : Nat → Bool) (s n : Nat) : 2 * (countBits f s n : Int) = ∑ j ∈ range n, sgn (f (s + j)) + n := by
  induction n with
  | zero => simp [countBits]
  | succ n ih =>
    rw [countBits_add, Finset.sum_range_succ]
    push_cast
    rw [mul_add, ih]
    have : 2 * (countBits f (s + n) 1 : Int) = sgn (f (s + n)) + 1 := by
      cases h : f (s + n) <;> simp [countBits, sgn, h]
    rw [this]; ring

/-- Twice a sample, as a signed sum of signs. -/
theorem two_sample (f : Nat → Bool) (s n : Nat) : 2 * ((countBits f s n : Int) - countBits f (s + n) n) = ∑ j ∈ range (n + n), (if j < n then 1 else -1) * sgn (f (s + j)) := by
  rw [mul_sub, two_countBits, two_countBits, Finset.sum_range_add, Finset.sum_congr (g := fun j => (if j < n then 1 else -1) * sgn (f (s + j))) rfl fun j hj => by
    rw [if_pos (Finset.mem_range.1 hj), one_mul]]
  rw [Finset.sum_congr (s₁ := range n) (f := fun j => (if n + j < n then (1 : Int) else -1) * sgn (f (s + (n + j)))) (g := fun j => - sgn (f (s + n + j))) rfl fun j hj => by
    rw [if_neg (by omega), Nat.add_assoc]; ring]
  rw [Finset.sum_neg_distrib]; ring

theorem entry_eq {n v W i : Nat} (h1 : 1 ≤ v) (h2 : v ≤ 32) (hi : i < n) (w : Fin W → Fin (2 ^ 64)) :
    2 * entry n v w i = ∑ j ∈ range (4 * v), (if j < 2 * v then 1 else -1) * sgn (streamBit (wordsOf w) (Props.cbdBlock v i + j)) := by
  obtain ⟨k, hk, -⟩ := Props.C12_sample_vec_cbd (n := n) h1 h2 (wordsOf_lt w)
  unfold entry
  rw [hk]
  simp only []
  rw [List.getD_eq_getElem?_getD, List.getElem?_map, List.getElem?_range hi, Option.map_some, Option.getD_some, two_sample, show 2 * v + 2 * v = 4 * v by omega]

theorem sum_words {W : Nat} (Φ : (Fin (64 * W) → Bool) → Int) : ∑ w : Fin W → Fin (2 ^ 64), Φ (bitsOf w) = ∑ f, Φ f :=
  Equiv.sum_comp (Equiv.ofBijective _ bitsOf_bijective) Φ

theorem sum_streamBit {W p : Nat} (hp : p < 64 * W) : ∑ w : Fin W → Fin (2 ^ 64), sgn (streamBit (wordsOf w) p) = 0 := by
  rw [← sum_sgn (K := Fin (64 * W)) ⟨p, hp⟩, ← sum_words]; rfl

theorem sum_streamBit_mul {W p q : Nat} (hp : p < 64 * W) (hq : q < 64 * W) :
    ∑ w : Fin W → Fin (2 ^ 64), sgn (streamBit (wordsOf w) p) * sgn (streamBit (wordsOf w) q) = if p = q then 2 ^ (64 * W) else 0 := by
  have := sum_sgn_mul (K := Fin (64 * W)) ⟨p, hp⟩ ⟨q, hq⟩
  rw [← sum_words, Fintype.card_fin] at this
  simp only [Fin.mk.injEq] at this
  exact this

theorem block_lt {n v W i j : Nat} (hW : if v ≤ 16 then 4 * v * n ≤ 64 * W else 2 * n ≤ W) (h2 : v ≤ 32) (hi : i < n) (hj : j < 4 * v) : Props.cbdBlock v i + j < 64 * W := by
  unfold Props.cbdBlock
  split at hW
  · rw [if_pos (by assumption)]
    have : 4 * v * (i + 1) ≤ 4 * v * n := Nat.mul_le_mul_left _ (by omega)
    rw [Nat.mul_add] at this; omega
  · rw [if_neg (by assumption)]; omega

theorem block_inj {v i j a b : Nat} (h2 : v ≤ 32) (ha : a < 4 * v) (hb : b < 4 * v) (h : Props.cbdBlock v i + a = Props.cbdBlock v j + b) : i = j ∧ a = b := by
  have hi : i = j := by
    rcases lt_trichotomy i j with hl | hl | hl
    · have := Props.C12_disjoint h2 hl; omega
    · exact hl
    · have := Props.C12_disjoint h2 hl; omega
  subst hi
  exact ⟨rfl, by omega⟩

theorem sum_entry {n v W i : Nat} (h1 : 1 ≤ v) (h2 : v ≤ 32) (hW : if v ≤ 16 then 4 * v * n ≤ 64 * W else 2 * n ≤ W) (hi : i < n) : ∑ w : Fin W → Fin (2 ^ 64), entry n v w i = 0 := by
  have : 2 * ∑ w : Fin W → Fin (2 ^ 64), entry n v w i = 0 := by
    rw [Finset.mul_sum, Finset.sum_congr rfl fun w _ => entry_eq h1 h2 hi w, Finset.sum_comm]
    refine Finset.sum_eq_zero fun j hj => ?_
    rw [← Finset.mul_sum, sum_streamBit (block_lt hW h2 hi (Finset.mem_range.1 hj)), mul_zero]
  omega

theorem sum_entry_mul {n v W i j : Nat} (h1 : 1 ≤ v) (h2 : v ≤ 32) (hW : if v ≤ 16 then 4 * v * n ≤ 64 * W else 2 * n ≤ W) (hi : i < n) (hj : j < n) :
    ∑ w : Fin W → Fin (2 ^ 64), entry n v w i * entry n v w j = if i = j then (v : Int) * 2 ^ (64 * W) else 0 := by
  have : 4 * ∑ w : Fin W → Fin (2 ^ 64), entry n v w i * entry n v w j = 4 * if i = j then (v : Int) * 2 ^ (64 * W) else 0 := by
    rw [Finset.mul_sum, Finset.sum_congr rfl fun w _ => show 4 * (entry n v w i * entry n v w j) = (2 * entry n v w i) * (2 * entry n v w j) by ring,
      Finset.sum_congr rfl fun w _ => by rw [entry_eq h1 h2 hi w, entry_eq h1 h2 hj w, Finset.sum_mul_sum], Finset.sum_comm]
    rw [Finset.sum_congr (s₁ := range (4 * v)) (g := fun a => if i = j then (2 : Int) ^ (64 * W) else 0) rfl fun a ha => ?_]
    · rw [Finset.sum_const, card_range, nsmul_eq_mul]
      push_cast
      split <;> ring
    · have ha := Finset.mem_range.1 ha
      rw [Finset.sum_comm]
      rw [Finset.sum_congr (s₁ := range (4 * v)) (g := fun b => if i = j ∧ a = b then (2 : Int) ^ (64 * W) else 0) rfl fun b hb => ?_]
      · by_cases hij : i = j
        · simp only [hij, true_and, if_true]
          rw [Finset.sum_ite_eq, if_pos (Finset.mem_range.2 ha)]
        · simp [hij]
      · have hb := Finset.mem_range.1 hb
        rw [Finset.sum_congr rfl fun w _ => show _ = ((if a < 2 * v then (1 : Int) else -1) * if b < 2 * v then 1 else -1) *
          (sgn (streamBit (wordsOf w) (Props.cbdBlock v i + a)) * sgn (streamBit (wordsOf w) (Props.cbdBlock v j + b))) by ring, ← Finset.mul_sum,
          sum_streamBit_mul (block_lt hW h2 hi ha) (block_lt hW h2 hj hb)]
        by_cases he : i = j ∧ a = b
        · obtain ⟨rfl, rfl⟩ := he
          rw [if_pos rfl, if_pos (show i = i ∧ a = a from ⟨rfl, rfl⟩)]
          by_cases hl : a < 2 * v
          · rw [if_pos hl]; ring
          · rw [if_neg hl]; ring
        · rw [if_neg fun h => he (block_inj h2 ha hb h), if_neg he, mul_zero]
  omega

end Fhe
