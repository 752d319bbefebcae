import Verif.Lemmas.RqSwitch
import Mathlib.Tactic.Linarith
/-! The dot product of two lists of polynomials. -/
namespace Fhe
open NttOperator Nega

theorem eq_tab_getD {α : Type} (l : List α) (d : α) : l = tab l.length fun i => l.getD i d := by
  apply List.ext_getElem?
  intro i
  by_cases hi : i < l.length
  · rw [tab_get? _ hi, List.getD_eq_getElem?_getD, List.getElem?_eq_getElem hi]; rfl
  · rw [List.getElem?_eq_none (by omega), List.getElem?_eq_none (by rw [length_tab]; omega)]

theorem flatten_tab {α : Type} (k N : Nat) (F : Nat → Nat → α) (hN : 0 < N) :
    (tab k fun r => tab N (F r)).flatten = tab (k * N) fun i => F (i / N) (i % N) := by
  induction k generalizing F with
  | zero => simp [tab]
  | succ k ih =>
    rw [tab_succ, List.flatten_cons, ih (fun r => F (r + 1)), show (k + 1) * N = N + k * N by ring, tab_add]
    congr 1
    · exact tab_congr fun i hi => by rw [Nat.div_eq_of_lt hi, Nat.mod_eq_of_lt hi]
    · refine tab_congr fun i _ => ?_
      rw [Nat.add_div_left _ hN, Nat.add_mod_left]

theorem splitRows_tab (k N : Nat) (F : Nat → Nat → Nat) (hN : 0 < N) :
    Poly.splitRows N k (tab (k * N) fun i => F (i / N) (i % N)) = tab k fun r => tab N (F r) := by
  rw [← flatten_tab k N F hN]
  have := Poly.splitRows_flatten (N := N) (tab k fun r => tab N (F r)) (by
    intro row hrow
    obtain ⟨i, -, rfl⟩ := mem_tab.1 hrow
    exact length_tab _ _)
  rwa [length_tab] at this

namespace Poly

theorem fmaZip_tab {M : Nat} {o x y : Nat → Nat} (h : ∀ i < M, o i + x i * y i < 2 ^ 128) :
    fmaZip (tab M o) (tab M x) (tab M y) = some (tab M fun i => o i + x i * y i) := by
  induction M generalizing o x y with
  | zero => rfl
  | succ M ih =>
    have h0 := h 0 (by omega)
    rw [tab_succ, tab_succ, tab_succ, tab_succ, fmaZip, mul128_eq (by omega)]
    simp only [Option.bind_eq_bind, Option.bind_some]
    rw [add128_eq h0, Option.bind_some, ih fun i hi => h (i + 1) (by omega)]
    rfl

theorem fmaChunks_tab {M : Nat} {o x y : Nat → Nat} (h : ∀ i < M, o i + x i * y i < 2 ^ 128) :
    fmaChunks (tab M o) (tab M x) (tab M y) = some (tab M fun i => o i + x i * y i) := by
  induction M using Nat.strong_induction_on generalizing o x y with
  | _ M ih =>
    unfold fmaChunks
    simp only [length_tab, and_self]
    by_cases hM : 16 ≤ M
    · rw [dif_pos hM, tab_take _ hM, tab_take _ hM, tab_take _ hM, tab_drop _ hM, tab_drop _ hM, tab_drop _ hM,
        fmaZip_tab fun i hi => h i (by omega), ih (M - 16) (by omega) fun i hi => h (16 + i) (by omega)]
      simp only [Option.bind_eq_bind, Option.bind_some]
      conv_rhs => rw [show M = 16 + (M - 16) by omega, tab_add]
      rfl
    · rw [dif_neg hM, fmaZip_tab h]

theorem fma_tab {M : Nat} {o x y : Nat → Nat} (h : ∀ i < M, o i + x i * y i < 2 ^ 128) :
    fma (tab M o) (tab M x) (tab M y) = some (tab M fun i => o i + x i * y i) := by
  unfold fma
  rw [check_eq (by simp), Option.bind_eq_bind, Option.bind_some, check_eq (by simp), Option.bind_some, fmaChunks_tab h]

section loop
variable {k N : Nat} {m : Nat → Modulus} {mx : Nat → Nat} {vt : Bool}

theorem dotReduce_eq {q : Modulus} (hq : q.WF) {x : Nat} (hx : x < 2 ^ 128) : dotReduce vt q x = some (x % q.p) := by
  unfold dotReduce
  rw [Modulus.reduceU128Vt_eq hq hx, Modulus.reduceU128_eq hq hx, ite_self]

theorem dotStep_eq (hN : 0 < N) (hm : ∀ r < k, (m r).WF) (l j : Nat) (hjl : j + l = k) {nu a : Nat → Nat}
    (hnu : ∀ r < k, nu r + 1 < 2 ^ 128) (ha : ∀ i < k * N, a i < 2 ^ 128) :
    dotStep vt N j (tab l fun r => m (j + r)) (tab l fun r => mx (j + r)) (tab l fun r => nu (j + r)) (tab (k * N) a) =
      some (tab (k * N) (fun i => if j ≤ i / N ∧ nu (i / N) + 1 = mx (i / N) then a i % (m (i / N)).p else a i),
        tab l fun r => if nu (j + r) + 1 = mx (j + r) then 1 else nu (j + r) + 1) := by
  induction l generalizing j a with
  | zero =>
    change some (tab (k * N) a, ([] : List Nat)) = _
    congr 2
    refine tab_congr fun i hi => ?_
    have : i / N < k := Nat.div_lt_of_lt_mul (by rwa [Nat.mul_comm])
    rw [if_neg (by omega)]
  | succ l ih =>
    rw [tab_succ, tab_succ, tab_succ, tab_succ]
    simp only [Nat.add_zero]
    have shift : ∀ {α : Type} (f : Nat → α), (tab l fun i => f (j + (i + 1))) = tab l fun i => f (j + 1 + i) := fun f =>
      tab_congr fun i _ => by congr 1; omega
    rw [shift m, shift mx, shift nu, dotStep, add128_eq (hnu j (by omega))]
    simp only [Option.bind_eq_bind, Option.bind_some]
    have hjk : (j + 1) * N ≤ k * N := Nat.mul_le_mul_right _ (by omega)
    have hj1 : (j + 1) * N = j * N + N := by ring
    by_cases hc : nu j + 1 = mx j
    · rw [if_pos hc, tab_drop _ (by omega), tab_take _ (by omega), tab_mapM (g := fun i => a (j * N + i) % (m j).p)
        fun i hi => dotReduce_eq (hm j (by omega)) (ha _ (by omega)), Option.bind_some]
      have hnew : (tab (k * N) a).take (j * N) ++ tab N (fun i => a (j * N + i) % (m j).p) ++ (tab (k * N) a).drop ((j + 1) * N) =
          tab (k * N) fun i => if i / N = j then a i % (m j).p else a i := by
        rw [tab_take _ (by omega), tab_drop _ hjk]
        conv_rhs => rw [show k * N = j * N + N + (k * N - (j + 1) * N) by omega, tab_add, tab_add]
        congr 1
        · congr 1
          · refine tab_congr fun i hi => ?_
            rw [if_neg]
            have : i / N < j := Nat.div_lt_of_lt_mul (by rwa [Nat.mul_comm])
            omega
          · refine tab_congr fun i hi => ?_
            rw [if_pos]
            rw [Nat.mul_comm, Nat.mul_add_div hN, Nat.div_eq_of_lt hi, Nat.add_zero]
        · refine tab_congr fun i hi => ?_
          rw [if_neg, hj1]
          have : j + 1 ≤ (j * N + N + i) / N := (Nat.le_div_iff_mul_le hN).2 (by omega)
          omega
      rw [hnew, ih (j + 1) (by omega) (a := fun i => if i / N = j then a i % (m j).p else a i) (fun i hi => by
        have := ha i hi
        split
        · exact (Nat.mod_le _ _).trans_lt this
        · exact this), Option.bind_some]
      simp only
      congr 2
      · refine tab_congr fun i _ => ?_
        by_cases h1 : i / N = j
        · rw [if_pos h1, if_neg (by omega), if_pos ⟨by omega, by rw [h1]; exact hc⟩, h1]
        · rw [if_neg h1]
          by_cases h2 : j + 1 ≤ i / N ∧ nu (i / N) + 1 = mx (i / N)
          · rw [if_pos h2, if_pos ⟨by omega, h2.2⟩]
          · rw [if_neg h2, if_neg fun h3 => h2 ⟨by omega, h3.2⟩]
      · rw [if_pos hc]
        congr 1
        exact tab_congr fun i _ => by rw [show j + 1 + i = j + (i + 1) by omega]
    · rw [if_neg hc, ih (j + 1) (by omega) ha, Option.bind_some]
      simp only
      congr 2
      · refine tab_congr fun i _ => ?_
        by_cases h2 : j + 1 ≤ i / N ∧ nu (i / N) + 1 = mx (i / N)
        · rw [if_pos h2, if_pos ⟨by omega, h2.2⟩]
        · rw [if_neg h2, if_neg]
          rintro ⟨h3, h4⟩
          rcases Nat.lt_or_ge j (i / N) with h5 | h5
          · exact h2 ⟨h5, h4⟩
          · obtain rfl : i / N = j := by omega
            exact hc h4
      · rw [if_neg hc]
        congr 1
        exact tab_congr fun i _ => by rw [show j + 1 + i = j + (i + 1) by omega]

/-- The flattened coefficients. -/
def flat (p : Poly .ntt) (i : Nat) : Nat := p.coeffs.flatten.getD i 0

variable {B : Nat → Nat}

theorem dotLoop_eq (hN : 0 < N) (hm : ∀ r < k, (m r).WF) (hB : ∀ r < k, mx r * B r = 2 ^ 128 ∧ (m r).p * (m r).p ≤ B r ∧ 2 ≤ mx r)
    (pq : List (Poly .ntt × Poly .ntt)) (hpq : ∀ x ∈ pq, (x.1.coeffs.flatten.length = k * N ∧ x.2.coeffs.flatten.length = k * N) ∧
      ∀ i < k * N, flat x.1 i < (m (i / N)).p ∧ flat x.2 i < (m (i / N)).p)
    {nu a : Nat → Nat} (hnu : ∀ r < k, nu r < mx r) (ha : ∀ i < k * N, a i < nu (i / N) * B (i / N)) :
    ∃ a', dotLoop vt N (tab k m) (tab k mx) pq (tab k nu) (tab (k * N) a) = some (tab (k * N) a') ∧
      ∀ i < k * N, a' i < 2 ^ 128 ∧ a' i % (m (i / N)).p = (a i + (pq.map fun x => flat x.1 i * flat x.2 i).sum) % (m (i / N)).p := by
  have hlt : ∀ i < k * N, i / N < k := fun i hi => Nat.div_lt_of_lt_mul (by rwa [Nat.mul_comm])
  have bound : ∀ {nu a : Nat → Nat}, (∀ r < k, nu r ≤ mx r) → (∀ i < k * N, a i < nu (i / N) * B (i / N)) → ∀ i < k * N, a i < 2 ^ 128 := by
    intro nu a hnu ha i hi
    rw [← (hB _ (hlt i hi)).1]
    exact (ha i hi).trans_le (Nat.mul_le_mul_right _ (hnu _ (hlt i hi)))
  induction pq generalizing nu a with
  | nil => exact ⟨a, rfl, fun i hi => ⟨bound (fun r hr => (hnu r hr).le) ha i hi, by simp⟩⟩
  | cons x pq ih =>
    obtain ⟨⟨l1, l2⟩, hx⟩ := hpq x (by simp)
    have hprod : ∀ i < k * N, flat x.1 i * flat x.2 i < B (i / N) := by
      intro i hi
      obtain ⟨h1, h2⟩ := hx i hi
      exact (Nat.mul_lt_mul'' h1 h2).trans_le (hB _ (hlt i hi)).2.1
    have ha1 : ∀ i < k * N, a i + flat x.1 i * flat x.2 i < (nu (i / N) + 1) * B (i / N) := by
      intro i hi
      have h1 := ha i hi
      have h2 := hprod i hi
      rw [Nat.add_mul, Nat.one_mul]; omega
    have hb1 : ∀ i < k * N, a i + flat x.1 i * flat x.2 i < 2 ^ 128 :=
      bound (nu := fun r => nu r + 1) (fun r hr => hnu r hr) ha1
    have hmx : ∀ r < k, mx r ≤ 2 ^ 128 := by
      intro r hr
      obtain ⟨h1, h2, h3⟩ := hB r hr
      have hp := (hm r hr).pos
      have : 0 < B r := lt_of_lt_of_le (Nat.mul_pos hp hp) h2
      rw [← h1]; exact Nat.le_mul_of_pos_right _ this
    obtain ⟨a', h1, h2⟩ := ih (fun y hy => hpq y (by simp [hy]))
      (nu := fun r => if nu r + 1 = mx r then 1 else nu r + 1)
      (a := fun i => if 0 ≤ i / N ∧ nu (i / N) + 1 = mx (i / N) then (a i + flat x.1 i * flat x.2 i) % (m (i / N)).p
        else a i + flat x.1 i * flat x.2 i)
      (fun r hr => by
        have := hnu r hr; have := (hB r hr).2.2
        split <;> omega)
      (fun i hi => by
        have hr := hlt i hi
        by_cases hc : nu (i / N) + 1 = mx (i / N)
        · simp only [hc, Nat.zero_le, and_self, if_true, Nat.one_mul]
          have hp := (hm _ hr).pos
          refine (Nat.mod_lt _ hp).trans_le (le_trans ?_ (hB _ hr).2.1)
          exact Nat.le_mul_of_pos_right _ hp
        · simp only [hc, and_false, if_false]
          exact ha1 i hi)
    refine ⟨a', ?_, fun i hi => ⟨(h2 i hi).1, ?_⟩⟩
    · rw [dotLoop, tab_of_length l1, tab_of_length l2]
      change (fma (tab (k * N) a) (tab (k * N) (flat x.1)) (tab (k * N) (flat x.2)) >>= _) = _
      rw [fma_tab hb1]
      simp only [Option.bind_eq_bind, Option.bind_some]
      have := dotStep_eq (vt := vt) (mx := mx) hN hm k 0 (by omega) (nu := nu) (a := fun i => a i + flat x.1 i * flat x.2 i)
        (fun r hr => by
          have := hnu r hr; have := hmx r hr
          rcases Nat.lt_or_ge (nu r + 1) (2 ^ 128) with h | h
          · exact h
          · exfalso
            obtain ⟨e1, e2, e3⟩ := hB r hr
            have hp := (hm r hr).two_le
            have h4 : 4 ≤ B r := le_trans (by nlinarith) e2
            have : mx r * 4 ≤ 2 ^ 128 := by rw [← e1]; exact Nat.mul_le_mul_left _ h4
            omega) hb1
      simp only [Nat.zero_add] at this
      rw [this, Option.bind_some]
      exact h1
    · rw [(h2 i hi).2, List.map_cons, List.sum_cons, ← Nat.add_assoc]
      by_cases hc : nu (i / N) + 1 = mx (i / N)
      · simp only [hc, Nat.zero_le, and_self, if_true]
        rw [Nat.mod_add_mod]
      · simp only [hc, and_false, if_false]

theorem dotLoopPlain_eq (hB : ∀ r < k, mx r * B r = 2 ^ 128 ∧ (m r).p * (m r).p ≤ B r ∧ 2 ≤ mx r)
    (pq : List (Poly .ntt × Poly .ntt)) (hpq : ∀ x ∈ pq, (x.1.coeffs.flatten.length = k * N ∧ x.2.coeffs.flatten.length = k * N) ∧
      ∀ i < k * N, flat x.1 i < (m (i / N)).p ∧ flat x.2 i < (m (i / N)).p)
    {t : Nat} {a : Nat → Nat} (ht : ∀ r < k, t + pq.length ≤ mx r) (ha : ∀ i < k * N, a i < t * B (i / N) ∨ a i = 0) :
    ∃ a', dotLoopPlain pq (tab (k * N) a) = some (tab (k * N) a') ∧
      ∀ i < k * N, a' i < 2 ^ 128 ∧ a' i % (m (i / N)).p = (a i + (pq.map fun x => flat x.1 i * flat x.2 i).sum) % (m (i / N)).p := by
  have hlt : ∀ i < k * N, i / N < k := fun i hi => Nat.div_lt_of_lt_mul (by rwa [Nat.mul_comm])
  induction pq generalizing t a with
  | nil =>
    refine ⟨a, rfl, fun i hi => ⟨?_, by simp⟩⟩
    rcases ha i hi with h | h
    · rw [← (hB _ (hlt i hi)).1]
      exact h.trans_le (Nat.mul_le_mul_right _ (by simpa using ht _ (hlt i hi)))
    · rw [h]; norm_num
  | cons x pq ih =>
    obtain ⟨⟨l1, l2⟩, hx⟩ := hpq x (by simp)
    have ha1 : ∀ i < k * N, a i + flat x.1 i * flat x.2 i < (t + 1) * B (i / N) := by
      intro i hi
      obtain ⟨h1, h2⟩ := hx i hi
      have h3 := (Nat.mul_lt_mul'' h1 h2).trans_le (hB _ (hlt i hi)).2.1
      rw [Nat.add_mul, Nat.one_mul]
      rcases ha i hi with h | h
      · omega
      · rw [h]; omega
    have hb1 : ∀ i < k * N, a i + flat x.1 i * flat x.2 i < 2 ^ 128 := by
      intro i hi
      rw [← (hB _ (hlt i hi)).1]
      have := ht _ (hlt i hi)
      rw [List.length_cons] at this
      exact (ha1 i hi).trans_le (Nat.mul_le_mul_right _ (by omega))
    obtain ⟨a', h1, h2⟩ := ih (fun y hy => hpq y (by simp [hy])) (t := t + 1) (a := fun i => a i + flat x.1 i * flat x.2 i)
      (fun r hr => by have := ht r hr; rw [List.length_cons] at this; omega) (fun i hi => Or.inl (ha1 i hi))
    refine ⟨a', ?_, fun i hi => ⟨(h2 i hi).1, ?_⟩⟩
    · rw [dotLoopPlain, tab_of_length l1, tab_of_length l2]
      change (fma (tab (k * N) a) (tab (k * N) (flat x.1)) (tab (k * N) (flat x.2)) >>= _) = _
      rw [fma_tab hb1]
      simp only [Option.bind_eq_bind, Option.bind_some]
      exact h1
    · rw [(h2 i hi).2, List.map_cons, List.sum_cons, ← Nat.add_assoc]

end loop

theorem maxAccOf_eq {q : Modulus} (hq : q.WF) : maxAccOf q = some (2 ^ (2 * lz64 q.p)) ∧
    2 ^ (2 * lz64 q.p) * 2 ^ (128 - 2 * lz64 q.p) = 2 ^ 128 ∧ q.p * q.p ≤ 2 ^ (128 - 2 * lz64 q.p) ∧ 2 ≤ 2 ^ (2 * lz64 q.p) := by
  have h2 := hq.two_le
  have hlt := hq.lt
  have hb : bitLen q.p = q.p.log2 + 1 := if_neg (by omega)
  have hlog : q.p.log2 < 62 := (Nat.log2_lt (by omega)).2 hlt
  have hlog1 : 1 ≤ q.p.log2 := (Nat.le_log2 (by omega)).2 (by simpa using h2)
  have hlz : lz64 q.p = 63 - q.p.log2 := by unfold lz64; omega
  have hp : q.p < 2 ^ (q.p.log2 + 1) := Nat.lt_log2_self
  refine ⟨?_, ?_, ?_, ?_⟩
  · unfold maxAccOf
    rw [check_eq (by omega)]
    simp only [Option.bind_eq_bind, Option.bind_some, shl128, Nat.shiftLeft_eq, Nat.one_mul]
    rw [Nat.mod_eq_of_lt (Nat.pow_lt_pow_right (by norm_num) (by omega))]; rfl
  · rw [← pow_add]; congr 1; omega
  · calc q.p * q.p ≤ 2 ^ (q.p.log2 + 1) * 2 ^ (q.p.log2 + 1) := Nat.mul_le_mul hp.le hp.le
      _ = 2 ^ (128 - 2 * lz64 q.p) := by rw [← pow_add]; congr 1; omega
  · calc 2 = 2 ^ 1 := rfl
      _ ≤ _ := Nat.pow_le_pow_right (by norm_num) (by omega)

variable {b : Build} {c : Context} {n : Nat}

theorem dotProduct_enc (h : c.WF b n) (l : List ((Bool × c.Elem) × (Bool × c.Elem))) (hl : l ≠ []) :
    dotProduct (l.map fun x => enc c .ntt x.1.1 x.1.2) (l.map fun x => enc c .ntt x.2.1 x.2.2) =
      some (.ok (enc c .ntt (l.all fun x => x.1.1 && x.2.1) (l.map fun x => x.1.2 * x.2.2).sum)) := by
  have := h.neZero
  have hN : 0 < c.degree := by rw [h.level.degree]; positivity
  obtain ⟨x0, l', rfl⟩ := List.exists_cons_of_ne_nil hl
  set l := x0 :: l' with hldef
  have d : NttOperator := c.ops.head h.level.ne_nil
  set k := c.ops.length with hk
  have hops : c.ops = tab k fun r => c.ops.getD r d := eq_tab_getD _ _
  have hmem : ∀ r < k, c.ops.getD r d ∈ c.ops := fun r hr => by
    rw [List.getD_eq_getElem?_getD, List.getElem?_eq_getElem hr]; exact List.getElem_mem _
  set O : Nat → NttOperator := fun r => c.ops.getD r d with hO
  have hw : ∀ r < k, ∃ ω ωi, (O r).WF n ω ωi := fun r hr => h.level.ops _ (hmem r hr)
  have hm : ∀ r < k, (O r).p.WF := fun r hr => by obtain ⟨_, _, hw⟩ := hw r hr; exact hw.modulus
  have hq : c.q = tab k fun r => (O r).p := by rw [h.level.q, hops, tab_map]
  have hqlen : c.q.length = k := by rw [hq, length_tab]
  unfold dotProduct
  rw [if_neg (by simp [hldef]), if_neg (by simp)]
  rw [hldef, List.map_cons]
  simp only
  rw [if_neg (by simp [enc])]
  simp only [show (enc c .ntt x0.1.1 x0.1.2).ctx = c from rfl]
  rw [← List.map_cons (f := fun x : (Bool × c.Elem) × (Bool × c.Elem) => enc c .ntt x.1.1 x.1.2), ← hldef, zip_map_same]
  have hvt : ((l.map fun x => (enc c .ntt x.1.1 x.1.2, enc c .ntt x.2.1 x.2.2)).all fun x => x.1.vt && x.2.vt) = l.all fun x => x.1.1 && x.2.1 := by
    rw [List.all_map]; rfl
  rw [hvt]
  generalize (l.all fun x => x.1.1 && x.2.1) = vt
  have hmax : c.q.mapM maxAccOf = some (tab k fun r => 2 ^ (2 * lz64 (O r).p.p)) := by
    rw [hq]; exact tab_mapM fun r hr => (maxAccOf_eq (hm r hr)).1
  rw [hmax]
  simp only [Option.bind_eq_bind, Option.bind_some]
  have hk0 : 0 < k := List.length_pos_iff.2 h.level.ne_nil
  obtain ⟨mn, hmn⟩ : ∃ mn, (tab k fun r => 2 ^ (2 * lz64 (O r).p.p)).min? = some mn := by
    rcases hh : (tab k fun r => 2 ^ (2 * lz64 (O r).p.p)).min? with _ | mn
    · rw [List.min?_eq_none_iff] at hh
      have := congrArg List.length hh
      rw [length_tab] at this
      simp at this; omega
    · exact ⟨mn, rfl⟩
  rw [hmn, Option.bind_some]
  have hmnle : ∀ r < k, mn ≤ 2 ^ (2 * lz64 (O r).p.p) := fun r hr =>
    (List.min?_eq_some_iff.1 hmn).2 _ (mem_tab.2 ⟨r, hr, rfl⟩)
  -- the entries
  have hE : ∀ r < k, ∃ Λ : Nat → c.Elem →+ ZMod (O r).p.p, (∀ f, encRow .ntt f (O r) = tab c.degree fun x => (Λ x f).val) ∧
      (∀ x f g, Λ x (f * g) = Λ x f * Λ x g) := by
    intro r hr
    obtain ⟨ω, ωi, hw⟩ := hw r hr
    obtain ⟨Λ, k1, -, k3⟩ := encRow_lin hw h.level.degree (h.dvd (hmem r hr)) .ntt
    exact ⟨Λ, k1, k3 (by decide)⟩
  have hrow : ∀ r < k, ∀ f : c.Elem, encRow .ntt f (O r) = tab c.degree fun j => (encRow .ntt f (O r)).getD j 0 := by
    intro r hr f
    obtain ⟨ω, ωi, hw⟩ := hw r hr
    exact tab_of_length (encRow_reduced hw h.level.degree (h.dvd (hmem r hr)) .ntt f).1
  have hcoeffs : ∀ (vt : Bool) (f : c.Elem), (enc c .ntt vt f).coeffs = tab k fun r => tab c.degree fun j => (encRow .ntt f (O r)).getD j 0 := by
    intro vt f
    change (c.ops.map fun op => encRow .ntt f op) = _
    rw [hops, tab_map]
    exact tab_congr fun r hr => hrow r hr f
  have hflat : ∀ (vt : Bool) (f : c.Elem), (enc c .ntt vt f).coeffs.flatten = tab (k * c.degree) fun i => (encRow .ntt f (O (i / c.degree))).getD (i % c.degree) 0 := by
    intro vt f
    rw [hcoeffs, flatten_tab _ _ _ hN]
  have hflat2 : ∀ (vt : Bool) (f : c.Elem), ∀ i < k * c.degree, flat (enc c .ntt vt f) i = (encRow .ntt f (O (i / c.degree))).getD (i % c.degree) 0 := by
    intro vt f i hi
    unfold flat
    rw [hflat, tab_getD _ hi]
  have hlt : ∀ i < k * c.degree, i / c.degree < k := fun i hi => Nat.div_lt_of_lt_mul (by rwa [Nat.mul_comm])
  have hred : ∀ (f : c.Elem), ∀ r < k, ∀ j < c.degree, (encRow .ntt f (O r)).getD j 0 < (O r).p.p := by
    intro f r hr j hj
    obtain ⟨ω, ωi, hw⟩ := hw r hr
    obtain ⟨e1, e2⟩ := encRow_reduced hw h.level.degree (h.dvd (hmem r hr)) .ntt f
    refine e2 _ ?_
    rw [List.getD_eq_getElem?_getD, List.getElem?_eq_getElem (by omega)]
    exact List.getElem_mem _
  set pq := l.map fun x => (enc c .ntt x.1.1 x.1.2, enc c .ntt x.2.1 x.2.2) with hpq
  have hside : ∀ x ∈ pq, (x.1.coeffs.flatten.length = k * c.degree ∧ x.2.coeffs.flatten.length = k * c.degree) ∧
      ∀ i < k * c.degree, flat x.1 i < (O (i / c.degree)).p.p ∧ flat x.2 i < (O (i / c.degree)).p.p := by
    intro x hx
    obtain ⟨y, -, rfl⟩ := List.mem_map.1 hx
    refine ⟨⟨by rw [hflat, length_tab], by rw [hflat, length_tab]⟩, fun i hi => ?_⟩
    rw [hflat2 _ _ _ hi, hflat2 _ _ _ hi]
    exact ⟨hred _ _ (hlt i hi) _ (Nat.mod_lt _ hN), hred _ _ (hlt i hi) _ (Nat.mod_lt _ hN)⟩
  have hacc : ∃ a', dotAcc vt c (tab k fun r => 2 ^ (2 * lz64 (O r).p.p)) mn pq = some (tab (k * c.degree) a') ∧
      ∀ i < k * c.degree, a' i < 2 ^ 128 ∧ a' i % (O (i / c.degree)).p.p =
        (0 + (pq.map fun x => flat x.1 i * flat x.2 i).sum) % (O (i / c.degree)).p.p := by
    unfold dotAcc
    rw [hqlen, replicate_eq_tab, replicate_eq_tab, hq]
    by_cases hc : pq.length > mn
    · rw [if_pos hc]
      exact dotLoop_eq (m := fun r => (O r).p) (B := fun r => 2 ^ (128 - 2 * lz64 (O r).p.p)) hN hm (fun r hr => (maxAccOf_eq (hm r hr)).2) pq hside
        (fun r hr => (maxAccOf_eq (hm r hr)).2.2.2) (fun i hi => by positivity)
    · rw [if_neg hc]
      exact dotLoopPlain_eq (m := fun r => (O r).p) (B := fun r => 2 ^ (128 - 2 * lz64 (O r).p.p)) (fun r hr => (maxAccOf_eq (hm r hr)).2) pq hside
        (t := 0) (fun r hr => by have := hmnle r hr; omega) (fun i hi => Or.inr rfl)
  obtain ⟨a', h1, h2⟩ := hacc
  rw [h1, Option.bind_some, hqlen]
  have hsplit : (tab (k * c.degree) a') = tab (k * c.degree) fun i => a' (i / c.degree * c.degree + i % c.degree) :=
    tab_congr fun i _ => by rw [Nat.div_add_mod']
  rw [hsplit, splitRows_tab k c.degree (fun r j => a' (r * c.degree + j)) hN, hq, tab_zip,
    tab_mapM (g := fun r => tab c.degree fun j => a' (r * c.degree + j) % (O r).p.p)]
  · rw [Option.bind_some]
    have hgoal : (tab k fun r => tab c.degree fun j => a' (r * c.degree + j) % (O r).p.p) =
        (enc c .ntt vt (l.map fun x => x.1.2 * x.2.2).sum).coeffs := by
      rw [hcoeffs]
      refine tab_congr fun r hr => tab_congr fun j hj => ?_
      have hi : r * c.degree + j < k * c.degree := by
        have : (r + 1) * c.degree ≤ k * c.degree := Nat.mul_le_mul_right _ hr
        rw [Nat.add_mul, Nat.one_mul] at this; omega
      have hdiv : (r * c.degree + j) / c.degree = r := by rw [Nat.mul_comm, Nat.mul_add_div hN, Nat.div_eq_of_lt hj, Nat.add_zero]
      have hmodj : (r * c.degree + j) % c.degree = j := by rw [Nat.mul_comm, Nat.mul_add_mod, Nat.mod_eq_of_lt hj]
      have := (h2 _ hi).2
      rw [hdiv, Nat.zero_add] at this
      rw [this]
      obtain ⟨Λ, k1, k2⟩ := hE r hr
      obtain ⟨ω, ωi, hw⟩ := hw r hr
      have : NeZero (O r).p.p := ⟨hw.prime.ne_zero⟩
      have e : ∀ (f : c.Elem), (encRow .ntt f (O r)).getD j 0 = (Λ j f).val := fun f => by rw [k1, tab_getD _ hj]
      rw [e, map_list_sum, hpq, List.map_map, List.map_map]
      have e2 : (l.map ((fun x : Poly .ntt × Poly .ntt => flat x.1 (r * c.degree + j) * flat x.2 (r * c.degree + j)) ∘
          fun x => (enc c .ntt x.1.1 x.1.2, enc c .ntt x.2.1 x.2.2))) = l.map fun x => (Λ j x.1.2).val * (Λ j x.2.2).val := by
        refine List.map_congr_left fun x _ => ?_
        simp only [Function.comp]
        rw [hflat2 _ _ _ hi, hflat2 _ _ _ hi, hdiv, hmodj, e, e]
      rw [e2, ← ZMod.val_natCast]
      congr 1
      rw [Nat.cast_list_sum, List.map_map]
      congr 1
      refine List.map_congr_left fun x _ => ?_
      simp only [Function.comp]
      rw [Nat.cast_mul, ZMod.natCast_zmod_val, ZMod.natCast_zmod_val, k2]
    rw [hgoal]; rfl
  · intro r hr
    refine tab_mapM fun j hj => ?_
    have hi : r * c.degree + j < k * c.degree := by
      have : (r + 1) * c.degree ≤ k * c.degree := Nat.mul_le_mul_right _ hr
      rw [Nat.add_mul, Nat.one_mul] at this; omega
    exact dotReduce_eq (hm r hr) (h2 _ hi).1

end Poly
end Fhe
