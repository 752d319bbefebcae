import Mathlib.Data.Nat.ChineseRemainder
import Mathlib.Algebra.BigOperators.Intervals
import Mathlib.Algebra.BigOperators.Fin
import Mathlib.Data.List.GetD
import Mathlib.Algebra.Order.BigOperators.Group.List
import Mathlib.Tactic.Ring
import Mathlib.Tactic.Linarith
import Verif.Model.Rns
import Verif.Lemmas.ZqVec
/-! Residue number systems: construction, projection, lifting. -/
namespace Fhe
open Finset

theorem modInverse_spec {a m : Nat} (hm : 1 < m) (h : Nat.gcd a m = 1) :
    ∃ x, modInverse a m = some x ∧ x < m ∧ a * x % m = 1 := by
  refine ⟨_, if_pos h, ?_, ?_⟩
  · have h1 := Int.emod_lt_of_pos (Nat.gcdA a m) (show (0 : Int) < m by omega)
    have h2 := Int.emod_nonneg (Nat.gcdA a m) (show (m : Int) ≠ 0 by omega)
    omega
  · have h2 := Int.emod_nonneg (Nat.gcdA a m) (show (m : Int) ≠ 0 by omega)
    have hb := Nat.gcd_eq_gcd_ab a m
    rw [h] at hb
    have : ((a * (Nat.gcdA a m % (m : Int)).toNat % m : Nat) : Int) = 1 := by
      rw [Int.natCast_mod, Nat.cast_mul, Int.toNat_of_nonneg h2, Int.mul_emod, Int.emod_emod_of_dvd _ (dvd_refl _), ← Int.mul_emod]
      have h3 : (a : Int) * Nat.gcdA a m = 1 - m * Nat.gcdB a m := by push_cast at hb; linarith
      rw [h3, Int.sub_mul_emod_self_left, Int.emod_eq_of_lt (by norm_num) (by omega)]
    exact_mod_cast this

instance : Inhabited Modulus := ⟨{ p := 0, barrettHi := 0, barrettLo := 0, leadingZeros := 0, supportsOpt := false, vtCfg := false }⟩

namespace RnsContext

theorem firstNonCoprime_none {l : List Nat} {i mi : Nat} {rest : List Nat} {j : Nat} :
    firstNonCoprime l i mi rest j = none ↔ ∀ t (h : t < rest.length), i ≠ j + t → Nat.gcd mi rest[t] = 1 := by
  induction rest generalizing j with
  | nil => simp [firstNonCoprime]
  | cons a rest ih =>
    unfold firstNonCoprime
    split
    · rename_i h
      simp only [false_iff, reduceCtorEq]
      intro hh
      exact h.2 (hh 0 (by simp) (by simpa using h.1))
    · rename_i h
      rw [ih]
      constructor
      · intro hh t ht hne
        cases t with
        | zero =>
          by_contra hc
          exact h ⟨by simpa using hne, by simpa using hc⟩
        | succ t => simpa using hh t (by simpa using ht) (by omega)
      · intro hh t ht hne
        have := hh (t + 1) (by simpa using ht) (by omega)
        simpa using this

theorem firstNonCoprime_some {l : List Nat} {i mi : Nat} {rest : List Nat} {j a b : Nat}
    (h : firstNonCoprime l i mi rest j = some (a, b)) :
    a = mi ∧ ∃ t, ∃ h : t < rest.length, i ≠ j + t ∧ rest[t] = b ∧ Nat.gcd mi b ≠ 1 := by
  induction rest generalizing j with
  | nil => simp [firstNonCoprime] at h
  | cons c rest ih =>
    unfold firstNonCoprime at h
    split at h
    · rename_i hc
      simp only [Option.some.injEq, Prod.mk.injEq] at h
      obtain ⟨rfl, rfl⟩ := h
      exact ⟨rfl, 0, by simp, by simpa using hc.1, by simp, hc.2⟩
    · obtain ⟨h1, t, h2, h3, h4, h5⟩ := ih h
      exact ⟨h1, t + 1, by simpa using h2, by omega, by simpa using h4, h5⟩

/-- Pairwise coprime, by position. -/
def CoprimeAt (l : List Nat) : Prop := ∀ i j (hi : i < l.length) (hj : j < l.length), i ≠ j → Nat.gcd l[i] l[j] = 1

theorem checkCoprime_ok {l : List Nat} (hl : CoprimeAt l) {rest : List Nat} {i P : Nat} (hr : l.drop i = rest) :
    checkCoprime l rest i P = .ok (P * rest.prod) := by
  induction rest generalizing i P with
  | nil => simp [checkCoprime]
  | cons a rest ih =>
    have hi : i < l.length := by
      by_contra hc
      rw [List.drop_eq_nil_of_le (by omega)] at hr; cases hr
    rw [List.drop_eq_getElem_cons hi] at hr
    obtain ⟨rfl, hr'⟩ := List.cons.inj hr
    unfold checkCoprime
    have : firstNonCoprime l i l[i] l 0 = none :=
      firstNonCoprime_none.2 fun t ht hne => hl i t hi ht (by omega)
    rw [this]
    simp only []
    rw [ih hr', List.prod_cons, Nat.mul_assoc]

theorem checkCoprime_cases (l : List Nat) {rest : List Nat} {i P : Nat} (hr : l.drop i = rest) :
    ((∃ P', checkCoprime l rest i P = .ok P') ∧ ∀ i' (h : i' < l.length), i ≤ i' → ∀ j (hj : j < l.length), i' ≠ j → Nat.gcd l[i'] l[j] = 1) ∨
    (∃ a b : Fin l.length, a ≠ b ∧ Nat.gcd l[a] l[b] ≠ 1 ∧ checkCoprime l rest i P = .error (.nonCoprimeModuli l[a] l[b])) := by
  induction rest generalizing i P with
  | nil =>
    left
    refine ⟨⟨P, rfl⟩, fun i' h hi => ?_⟩
    have : l.length ≤ i := List.drop_eq_nil_iff.1 hr
    omega
  | cons a rest ih =>
    have hi : i < l.length := by
      by_contra hc
      rw [List.drop_eq_nil_of_le (by omega)] at hr; cases hr
    rw [List.drop_eq_getElem_cons hi] at hr
    obtain ⟨rfl, hr'⟩ := List.cons.inj hr
    unfold checkCoprime
    cases hf : firstNonCoprime l i l[i] l 0 with
    | some ab =>
      obtain ⟨a, b⟩ := ab
      obtain ⟨rfl, t, ht, hne, rfl, hg⟩ := firstNonCoprime_some hf
      right
      exact ⟨⟨i, hi⟩, ⟨t, ht⟩, by simpa [Fin.ext_iff] using hne, hg, rfl⟩
    | none =>
      simp only []
      rcases ih (i := i + 1) (P := P * l[i]) hr' with ⟨h1, h2⟩ | h
      · left
        refine ⟨h1, fun i' h hle j hj hne => ?_⟩
        rcases Nat.eq_or_lt_of_le hle with rfl | hlt
        · exact firstNonCoprime_none.1 hf j hj (by omega)
        · exact h2 i' h hlt j hj hne
      · exact Or.inr h

/-- The facts about a context that its constructor establishes. -/
structure WF (c : RnsContext) : Prop where
  ne_nil : c.moduliU64 ≠ []
  len_moduli : c.moduli.length = c.moduliU64.length
  len_garner : c.garner.length = c.moduliU64.length
  moduli : ∀ i (h : i < c.moduliU64.length), ∃ m, c.moduli[i]? = some m ∧ m.WF ∧ m.p = c.moduliU64[i]
  coprime : CoprimeAt c.moduliU64
  product : c.product = c.moduliU64.prod
  garner_lt : ∀ g ∈ c.garner, g < c.product
  garner_self : ∀ i (h : i < c.moduliU64.length), c.garner.getD i 0 % c.moduliU64[i] = 1
  garner_other : ∀ i j (h : j < c.moduliU64.length), i ≠ j → c.moduliU64[j] ∣ c.garner.getD i 0

theorem prod_dvd_div {l : List Nat} {i j : Nat} (hi : i < l.length) (hj : j < l.length) (hij : i ≠ j) (hpos : 0 < l[i]) :
    l[j] ∣ l.prod / l[i] := by
  obtain ⟨k, hk⟩ : l[i] * l[j] ∣ l.prod := by
    induction l generalizing i j with
    | nil => simp at hi
    | cons a l ih =>
      rw [List.prod_cons]
      cases i with
      | zero =>
        cases j with
        | zero => exact absurd rfl hij
        | succ j =>
          simp only [List.getElem_cons_zero, List.getElem_cons_succ]
          exact Nat.mul_dvd_mul_left _ (List.dvd_prod (List.getElem_mem _))
      | succ i =>
        cases j with
        | zero =>
          simp only [List.getElem_cons_zero, List.getElem_cons_succ]
          rw [Nat.mul_comm]
          exact Nat.mul_dvd_mul_left _ (List.dvd_prod (List.getElem_mem _))
        | succ j =>
          simp only [List.getElem_cons_succ]
          exact Dvd.dvd.mul_left (ih (by simpa using hi) (by simpa using hj) (by omega) (by simpa using hpos)) _
  refine ⟨k, ?_⟩
  rw [hk, Nat.mul_assoc, Nat.mul_div_cancel_left _ hpos]

theorem coprime_div {l : List Nat} (hc : CoprimeAt l) {i : Nat} (hi : i < l.length) (hpos : 0 < l[i]) :
    Nat.gcd (l.prod / l[i]) l[i] = 1 := by
  have h1 : l.prod / l[i] = (l.eraseIdx i).prod := by
    have : l[i] * (l.eraseIdx i).prod = l.prod := by
      clear hc hpos
      induction l generalizing i with
      | nil => simp at hi
      | cons a l ih =>
        cases i with
        | zero => simp
        | succ i =>
          simp only [List.getElem_cons_succ, List.eraseIdx_cons_succ, List.prod_cons]
          rw [← ih (by simpa using hi)]; ring
    rw [← this, Nat.mul_div_cancel_left _ hpos]
  rw [h1]
  have h2 : ∀ x ∈ l.eraseIdx i, Nat.Coprime x l[i] := by
    intro x hx
    obtain ⟨j, hj, rfl⟩ := List.getElem_of_mem hx
    rw [List.length_eraseIdx_of_lt hi] at hj
    rw [List.getElem_eraseIdx]
    split
    · exact hc j i (by omega) hi (by omega)
    · exact hc (j + 1) i (by omega) hi (by omega)
  generalize l.eraseIdx i = l' at h2
  generalize l[i] = q at h2
  induction l' with
  | nil => simp
  | cons a l' ih =>
    rw [List.prod_cons]
    exact Nat.Coprime.mul_left (h2 a (by simp)) (ih (fun x hx => h2 x (by simp [hx])))

theorem collectResults_ok {α β : Type} {f : α → Panics (Except MathError β)} {l : List α} {g : α → β}
    (h : ∀ x ∈ l, f x = some (.ok (g x))) : collectResults f l = some (.ok (l.map g)) := by
  induction l with
  | nil => rfl
  | cons a l ih =>
    rw [collectResults, h a (by simp), ih (fun x hx => h x (by simp [hx]))]
    rfl

theorem perModulus_ok {cfg : Bool} {l : List Nat} (hc : CoprimeAt l) {i : Nat} (hi : i < l.length) (h2 : 2 ≤ l[i]) (h62 : l[i] < 2 ^ 62) :
    ∃ m x s, perModulus cfg l.prod l[i] = some (.ok (m, x, s, l.prod / l[i], l.prod / l[i] * x)) ∧ m.WF ∧ m.p = l[i] ∧ m.vtCfg = cfg ∧ x < l[i] ∧
      l.prod / l[i] * x % l[i] = 1 := by
  obtain ⟨m, h1, h3, h4, h5⟩ := Modulus.new_eq_ok (cfg := cfg) (p := l[i]) ⟨h2, h62⟩
  obtain ⟨x, x1, x2, x3⟩ := modInverse_spec (show 1 < l[i] by omega) (coprime_div hc hi (by omega))
  refine ⟨m, x, x * 2 ^ 64 / m.p, ?_, h5, h3, h4, x2, x3⟩
  unfold perModulus
  simp only [h1, x1, Option.bind_eq_bind, Option.bind_some, check_eq (show x < 2 ^ 64 by omega),
    Modulus.shoup_eq h5 (show x < m.p by omega)]
  rfl

theorem new_ok {cfg : Bool} {l : List Nat} (hne : l ≠ []) (hc : CoprimeAt l) (hq : ∀ q ∈ l, 2 ≤ q ∧ q < 2 ^ 62) :
    ∃ c, new cfg l = some (.ok c) ∧ c.WF ∧ c.moduliU64 = l ∧ ∀ m ∈ c.moduli, m.vtCfg = cfg := by
  have hper : ∀ i (hi : i < l.length), ∃ r : Modulus × Nat × Nat × Nat × Nat, perModulus cfg l.prod l[i] = some (.ok r) ∧
      r.1.WF ∧ r.1.p = l[i] ∧ r.1.vtCfg = cfg ∧ r.2.2.2.2 < l.prod ∧ r.2.2.2.2 % l[i] = 1 ∧
      ∀ j (hj : j < l.length), i ≠ j → l[j] ∣ r.2.2.2.2 := by
    intro i hi
    obtain ⟨h2, h62⟩ := hq _ (List.getElem_mem hi)
    obtain ⟨m, x, s, h1, h3, h4, h5, h6, h7⟩ := perModulus_ok (cfg := cfg) hc hi h2 h62
    have hp : 0 < l.prod := List.prod_pos fun q hq' => by have := hq q hq'; omega
    have hdvd : l[i] ∣ l.prod := List.dvd_prod (List.getElem_mem hi)
    refine ⟨_, h1, h3, h4, h5, ?_, h7, fun j hj hij => Dvd.dvd.mul_right (prod_dvd_div hi hj hij (by omega)) _⟩
    calc l.prod / l[i] * x < l.prod / l[i] * l[i] := Nat.mul_lt_mul_of_pos_left h6 (Nat.div_pos (Nat.le_of_dvd hp hdvd) (by omega))
      _ = l.prod := Nat.div_mul_cancel hdvd
  let g : Nat → Modulus × Nat × Nat × Nat × Nat := fun q =>
    match perModulus cfg l.prod q with
    | some (.ok r) => r
    | _ => default
  have hg : ∀ i (hi : i < l.length), perModulus cfg l.prod l[i] = some (.ok (g l[i])) ∧
      (g l[i]).1.WF ∧ (g l[i]).1.p = l[i] ∧ (g l[i]).1.vtCfg = cfg ∧ (g l[i]).2.2.2.2 < l.prod ∧ (g l[i]).2.2.2.2 % l[i] = 1 ∧
      ∀ j (hj : j < l.length), i ≠ j → l[j] ∣ (g l[i]).2.2.2.2 := by
    intro i hi
    obtain ⟨r, hr, h⟩ := hper i hi
    have : g l[i] = r := by simp only [g, hr]
    rw [this]
    exact ⟨hr, h⟩
  refine ⟨{ moduliU64 := l, moduli := (l.map g).map (·.1), qTilde := (l.map g).map (·.2.1), qTildeShoup := (l.map g).map (·.2.2.1),
            qStar := (l.map g).map (·.2.2.2.1), garner := (l.map g).map (·.2.2.2.2), product := l.prod }, ?_, ?_, rfl, ?_⟩
  · rw [new, if_neg hne, checkCoprime_ok hc (rest := l) (by simp), Nat.one_mul]
    simp only []
    rw [collectResults_ok (g := g)]
    · rfl
    · intro x hx
      obtain ⟨i, hi, rfl⟩ := List.getElem_of_mem hx
      exact (hg i hi).1
  · have hgar : ∀ i, i < l.length → (List.map (fun x => x.2.2.2.2) (l.map g)).getD i 0 = (g l[i]!).2.2.2.2 := by
      intro i hi
      simp [List.getD_eq_getElem?_getD, hi]
    exact {
      ne_nil := hne
      len_moduli := by simp
      len_garner := by simp
      moduli := fun i h => ⟨(g l[i]).1, by simp [h], (hg i h).2.1, (hg i h).2.2.1⟩
      coprime := hc
      product := rfl
      garner_lt := by
        intro x hx
        simp only [List.map_map, List.mem_map] at hx
        obtain ⟨q, hq, rfl⟩ := hx
        obtain ⟨i, hi, rfl⟩ := List.getElem_of_mem hq
        exact (hg i hi).2.2.2.2.1
      garner_self := by
        intro i h
        rw [hgar i h]
        simp only [getElem!_pos l i h]
        exact (hg i h).2.2.2.2.2.1
      garner_other := by
        intro i j h hij
        by_cases hi : i < l.length
        · rw [hgar i hi]
          simp only [getElem!_pos l i hi]
          exact (hg i hi).2.2.2.2.2.2 j h hij
        · have : (List.map (fun x => x.2.2.2.2) (l.map g)).getD i 0 = 0 := by
            simp [List.getD_eq_getElem?_getD, hi]
          rw [this]; exact dvd_zero _ }
  · intro m hm
    simp only [List.map_map, List.mem_map] at hm
    obtain ⟨q, hq, rfl⟩ := hm
    obtain ⟨i, hi, rfl⟩ := List.getElem_of_mem hq
    exact (hg i hi).2.2.2.1

theorem collectResults_error {α β : Type} {f : α → Panics (Except MathError β)} {pre : List α} {a : α} {post : List α} {e : MathError}
    (h : ∀ x ∈ pre, ∃ b, f x = some (.ok b)) (ha : f a = some (.error e)) : collectResults f (pre ++ a :: post) = some (.error e) := by
  induction pre with
  | nil => rw [List.nil_append, collectResults, ha]; rfl
  | cons b pre ih =>
    obtain ⟨r, hr⟩ := h b (by simp)
    rw [List.cons_append, collectResults, hr, ]
    simp only [Option.bind_eq_bind, Option.bind_some]
    rw [ih (fun x hx => h x (by simp [hx]))]
    rfl

theorem new_nil (cfg : Bool) : new cfg [] = some (.error .emptyModuli) := rfl

theorem new_nonCoprime {cfg : Bool} {l : List Nat} (hc : ¬ CoprimeAt l) :
    ∃ a b : Fin l.length, a ≠ b ∧ Nat.gcd l[a] l[b] ≠ 1 ∧ new cfg l = some (.error (.nonCoprimeModuli l[a] l[b])) := by
  rcases checkCoprime_cases l (rest := l) (i := 0) (P := 1) (by simp) with ⟨-, h⟩ | ⟨a, b, h1, h2, h3⟩
  · exact absurd (fun i j hi hj hij => h i hi (Nat.zero_le _) j hj hij) hc
  · refine ⟨a, b, h1, h2, ?_⟩
    have hne : l ≠ [] := by rintro rfl; exact a.elim0
    rw [new, if_neg hne, h3]

theorem new_invalid {cfg : Bool} {pre post : List Nat} {q : Nat} (hc : CoprimeAt (pre ++ q :: post)) (hpre : ∀ x ∈ pre, 2 ≤ x ∧ x < 2 ^ 62)
    (hq : ¬ (2 ≤ q ∧ q < 2 ^ 62)) : new cfg (pre ++ q :: post) = some (.error (.invalidModulus q)) := by
  rw [new, if_neg (by simp), checkCoprime_ok hc (rest := pre ++ q :: post) (by simp)]
  simp only [Nat.one_mul]
  rw [collectResults_error (e := .invalidModulus q)]
  · rfl
  · intro x hx
    obtain ⟨i, hi, rfl⟩ := List.getElem_of_mem hx
    have hi' : i < (pre ++ q :: post).length := by rw [List.length_append]; omega
    have he : (pre ++ q :: post)[i] = pre[i] := List.getElem_append_left hi
    obtain ⟨h2, h62⟩ := hpre _ hx
    obtain ⟨m, x, s, h1, -⟩ := perModulus_ok (cfg := cfg) hc hi' (by rw [he]; exact h2) (by rw [he]; exact h62)
    rw [he] at h1
    exact ⟨_, h1⟩
  · unfold perModulus
    rw [Modulus.new_eq_error hq]; rfl

theorem exists_first_bad {P : Nat → Prop} [DecidablePred P] {l : List Nat} (h : ¬ ∀ x ∈ l, P x) :
    ∃ pre q post, l = pre ++ q :: post ∧ (∀ x ∈ pre, P x) ∧ ¬ P q := by
  induction l with
  | nil => exact absurd (by simp) h
  | cons a l ih =>
    by_cases ha : P a
    · obtain ⟨pre, q, post, h1, h2, h3⟩ := ih (fun hc => h (by
        intro x hx
        rcases List.mem_cons.1 hx with rfl | hx
        · exact ha
        · exact hc x hx))
      refine ⟨a :: pre, q, post, by rw [h1]; rfl, ?_, h3⟩
      intro x hx
      rcases List.mem_cons.1 hx with rfl | hx
      · exact ha
      · exact h2 x hx
    · exact ⟨[], a, l, rfl, by simp, ha⟩

theorem WF_of_new {cfg : Bool} {l : List Nat} {c : RnsContext} (h : new cfg l = some (.ok c)) :
    c.WF ∧ c.moduliU64 = l ∧ (∀ m ∈ c.moduli, m.vtCfg = cfg) ∧ ∀ q ∈ l, 2 ≤ q ∧ q < 2 ^ 62 := by
  by_cases hne : l = []
  · subst hne; rw [new_nil] at h; cases h
  by_cases hc : CoprimeAt l
  · by_cases hq : ∀ q ∈ l, 2 ≤ q ∧ q < 2 ^ 62
    · obtain ⟨c', h1, h2, h3, h4⟩ := new_ok (cfg := cfg) hne hc hq
      rw [h1] at h
      obtain rfl : c' = c := by simpa using h
      exact ⟨h2, h3, h4, hq⟩
    · obtain ⟨pre, q, post, rfl, h2, h3⟩ := exists_first_bad hq
      rw [new_invalid hc h2 h3] at h; simp at h
  · obtain ⟨a, b, -, -, h1⟩ := new_nonCoprime (cfg := cfg) hc
    rw [h1] at h; simp at h

theorem WF.bounds {c : RnsContext} (h : c.WF) : ∀ q ∈ c.moduliU64, 2 ≤ q ∧ q < 2 ^ 62 := by
  intro q hq
  obtain ⟨i, hi, rfl⟩ := List.getElem_of_mem hq
  obtain ⟨m, -, h2, h3⟩ := h.moduli i hi
  rw [← h3]; exact ⟨h2.two_le, h2.lt⟩

theorem WF.product_pos {c : RnsContext} (h : c.WF) : 0 < c.product := by
  rw [h.product]; exact List.prod_pos fun q hq => by have := h.bounds q hq; omega

theorem project_eq {c : RnsContext} (h : c.WF) (a : Nat) : c.project a = some (c.moduliU64.map (a % ·)) := by
  refine mapM_eq_some_map fun q hq => ?_
  have hb := h.bounds q hq
  have : a % q < q := Nat.mod_lt _ (by omega)
  rw [check_eq (by omega), check_eq (by omega)]; rfl

theorem CoprimeAt.pairwise {l : List Nat} (h : CoprimeAt l) : l.Pairwise Nat.Coprime :=
  List.pairwise_iff_getElem.2 fun i j hi hj hij => h i j hi hj (by omega)

theorem coprimeAt_of_pairwise {l : List Nat} (h : l.Pairwise Nat.Coprime) : CoprimeAt l := by
  intro i j hi hj hij
  rcases Nat.lt_or_gt_of_ne hij with hlt | hlt
  · exact List.pairwise_iff_getElem.1 h i j hi hj hlt
  · exact Nat.Coprime.symm (List.pairwise_iff_getElem.1 h j i hj hi hlt)

/-- Values below the product are determined by their residues. -/
theorem WF.ext {c : RnsContext} (h : c.WF) {x y : Nat} (hx : x < c.product) (hy : y < c.product)
    (hxy : ∀ q ∈ c.moduliU64, x % q = y % q) : x = y := by
  have : x ≡ y [MOD c.moduliU64.prod] := (Nat.modEq_list_prod_iff h.coprime.pairwise).2 fun i => hxy _ (by simp)
  rw [← h.product] at this
  rwa [Nat.ModEq, Nat.mod_eq_of_lt hx, Nat.mod_eq_of_lt hy] at this

theorem zipWith_sum {f : Nat → Nat → Nat} {a b : List Nat} (h : a.length = b.length) :
    (List.zipWith f a b).sum = ∑ i ∈ range b.length, f (a.getD i 0) (b.getD i 0) := by
  induction a generalizing b with
  | nil =>
    cases b with
    | nil => simp
    | cons => simp at h
  | cons x a ih =>
    cases b with
    | nil => simp at h
    | cons y b =>
      rw [List.zipWith_cons_cons, List.sum_cons, ih (by simpa using h), List.length_cons, sum_range_succ']
      simp [add_comm]

theorem garner_sum_mod {c : RnsContext} (h : c.WF) (r : Nat → Nat) {j : Nat} (hj : j < c.moduliU64.length) :
    (∑ i ∈ range c.moduliU64.length, c.garner.getD i 0 * r i) % c.moduliU64[j] = r j % c.moduliU64[j] := by
  rw [← add_sum_erase _ _ (mem_range.2 hj)]
  have : c.moduliU64[j] ∣ ∑ i ∈ (range c.moduliU64.length).erase j, c.garner.getD i 0 * r i :=
    dvd_sum fun i hi => Dvd.dvd.mul_right (h.garner_other i j hj (by simp at hi; omega)) _
  obtain ⟨k, hk⟩ := this
  rw [hk, Nat.add_mul_mod_self_left, Nat.mul_mod, h.garner_self j hj, Nat.one_mul, Nat.mod_mod]

theorem lift_eq {c : RnsContext} (h : c.WF) {r : List Nat} (hr : r.length = c.moduliU64.length) :
    ∃ x, c.lift r = some x ∧ x < c.product ∧ x = (∑ i ∈ range c.moduliU64.length, c.garner.getD i 0 * r.getD i 0) % c.product ∧
      ∀ i (hi : i < c.moduliU64.length), x % c.moduliU64[i] = r.getD i 0 % c.moduliU64[i] := by
  have hp := h.product_pos
  refine ⟨_, ?_, Nat.mod_lt _ hp, rfl, fun i hi => ?_⟩
  · unfold lift
    rw [check_eq (by omega), zipWith_sum (f := fun r g => g * r) (by rw [hr, h.len_garner]), h.len_garner]
    rfl
  · rw [Nat.mod_mod_of_dvd _ (by rw [h.product]; exact List.dvd_prod (List.getElem_mem hi)), garner_sum_mod h _ hi]

end RnsContext
end Fhe
