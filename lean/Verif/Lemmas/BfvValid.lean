import Verif.Model.BfvParams
import Verif.Lemmas.RqCtx
import Verif.Props.Util
/-! Validation of BFV parameters and generation of moduli. -/
namespace Fhe

theorem bind_pure_ok {α : Type} (x : Res α) : (x >>= fun a => (pure a : Res α)) = x := bind_pure x

/-- A result that is not a panic. -/
def Res.NoPanic {α : Type} (x : Res α) : Prop := x ≠ Res.panic

namespace Res
variable {α β : Type}

theorem noPanic_ok (a : α) : (Res.ok a).NoPanic := by
  intro h
  exact panic_ne_ok h.symm
theorem noPanic_err (e : FheError) : (Res.err e : Res α).NoPanic := by
  intro h
  have h' : (some (Except.error e) : Option (Except FheError α)) = none := h
  simp at h'
theorem noPanic_iff {x : Res α} : x.NoPanic ↔ (∃ a, x = Res.ok a) ∨ ∃ e, x = Res.err e := by
  constructor
  · intro h
    rcases cases x with h' | h' | h'
    · exact Or.inl h'
    · exact Or.inr h'
    · exact absurd h' h
  · rintro (⟨a, rfl⟩ | ⟨e, rfl⟩)
    · exact noPanic_ok a
    · exact noPanic_err e
theorem NoPanic.bind {x : Res α} {f : α → Res β} (hx : x.NoPanic) (hf : ∀ a, x = Res.ok a → (f a).NoPanic) : (x >>= f).NoPanic := by
  rcases noPanic_iff.1 hx with ⟨a, rfl⟩ | ⟨e, rfl⟩
  · rw [ok_bind]; exact hf a rfl
  · rw [err_bind]; exact noPanic_err e
/-- An error of the first step is the error of the whole. -/
theorem bind_eq_err {x : Res α} {f : α → Res β} {e : FheError} :
    (x >>= f) = Res.err e ↔ x = Res.err e ∨ ∃ a, x = Res.ok a ∧ f a = Res.err e := by
  rcases cases x with ⟨a, rfl⟩ | ⟨e', rfl⟩ | rfl
  · rw [ok_bind]
    refine ⟨fun h => Or.inr ⟨a, rfl, h⟩, ?_⟩
    rintro (h | ⟨a', h, h'⟩)
    · exact absurd h.symm err_ne_ok
    · rw [ok_inj] at h; rw [h]; exact h'
  · rw [err_bind, err_inj, err_inj]
    refine ⟨Or.inl, ?_⟩
    rintro (h | ⟨a', h, h'⟩)
    · exact h
    · exact absurd h err_ne_ok
  · rw [panic_bind]
    refine ⟨fun h => absurd h.symm (noPanic_err e), ?_⟩
    rintro (h | ⟨a', h, h'⟩)
    · exact absurd h.symm (noPanic_err e)
    · exact absurd h panic_ne_ok

theorem mapM_eq_ok {f : α → Res β} {l : List α} {l' : List β} : l.mapM f = Res.ok l' ↔ List.Forall₂ (fun a c => f a = Res.ok c) l l' := by
  induction l generalizing l' with
  | nil =>
    rw [List.mapM_nil, pure_eq, ok_inj]
    constructor
    · rintro rfl; exact .nil
    · intro h; cases h; rfl
  | cons a l ih =>
    rw [List.mapM_cons, bind_eq_ok]
    constructor
    · rintro ⟨c, h1, h2⟩
      rw [bind_eq_ok] at h2
      obtain ⟨cs, h3, h4⟩ := h2
      rw [pure_eq, ok_inj] at h4
      subst h4
      exact .cons h1 (ih.1 h3)
    · intro h
      cases h with
      | @cons _ c _ cs h1 h2 => exact ⟨c, h1, by rw [bind_eq_ok]; exact ⟨cs, ih.2 h2, rfl⟩⟩
end Res

namespace ParamsBuilder

theorem gcd_eq (a b : Nat) : gcd a b = Nat.gcd a b := by
  induction b using Nat.strong_induction_on generalizing a with
  | _ b ih =>
    rw [gcd]
    by_cases hb : b ≠ 0
    · rw [dif_pos hb, ih _ (Nat.mod_lt _ (Nat.pos_of_ne_zero hb)), Nat.gcd_comm b, ← Nat.gcd_rec, Nat.gcd_comm]
    · rw [dif_neg hb]
      have : b = 0 := not_not.1 hb
      rw [this, Nat.gcd_zero_right]

theorem validateConfiguration_spec (s : ParamsBuilder) : s.validateConfiguration.NoPanic ∧
    (s.validateConfiguration = Res.ok () ↔ (∃ n, 3 ≤ n ∧ n ≤ 16 ∧ s.degree = 2 ^ n) ∧ (1 ≤ s.variance ∧ s.variance ≤ 32) ∧
      ((s.moduli = [] ∧ s.moduliSizes ≠ []) ∨ (s.moduli ≠ [] ∧ s.moduliSizes = []))) := by
  have hdeg : (¬ (8 ≤ s.degree ∧ s.degree ≤ 65536) ∨ ¬ s.degree.isPowerOfTwo) ↔ ¬ ∃ n, 3 ≤ n ∧ n ≤ 16 ∧ s.degree = 2 ^ n := by
    rw [← not_and_or, not_iff_not]
    constructor
    · rintro ⟨⟨h8, h16⟩, k, hk⟩
      rw [hk] at h8 h16
      refine ⟨k, ?_, ?_, hk⟩
      · by_contra hc
        have : 2 ^ k ≤ 2 ^ 2 := Nat.pow_le_pow_right (by norm_num) (by omega)
        omega
      · by_contra hc
        have : 2 ^ 17 ≤ 2 ^ k := Nat.pow_le_pow_right (by norm_num) (by omega)
        omega
    · rintro ⟨n, h3, h16, hn⟩
      have h1 : 2 ^ 3 ≤ 2 ^ n := Nat.pow_le_pow_right (by norm_num) h3
      have h2 : 2 ^ n ≤ 2 ^ 16 := Nat.pow_le_pow_right (by norm_num) h16
      exact ⟨by omega, n, hn⟩
  unfold validateConfiguration
  by_cases h1 : ¬ (8 ≤ s.degree ∧ s.degree ≤ 65536) ∨ ¬ s.degree.isPowerOfTwo
  · rw [if_pos h1]
    exact ⟨Res.noPanic_err _, fun h => absurd h Res.err_ne_ok, fun h => absurd h.1 (hdeg.1 h1)⟩
  rw [if_neg h1]
  by_cases h2 : ¬ (1 ≤ s.variance ∧ s.variance ≤ 32)
  · rw [if_pos h2]
    exact ⟨Res.noPanic_err _, fun h => absurd h Res.err_ne_ok, fun h => absurd h.2.1 h2⟩
  rw [if_neg h2]
  by_cases h3 : s.moduli ≠ [] ∧ s.moduliSizes ≠ []
  · rw [if_pos h3]
    refine ⟨Res.noPanic_err _, fun h => absurd h Res.err_ne_ok, fun h => ?_⟩
    rcases h.2.2 with h | h
    · exact absurd h.1 h3.1
    · exact absurd h.2 h3.2
  rw [if_neg h3]
  by_cases h4 : s.moduli = [] ∧ s.moduliSizes = []
  · rw [if_pos h4]
    refine ⟨Res.noPanic_err _, fun h => absurd h Res.err_ne_ok, fun h => ?_⟩
    rcases h.2.2 with h | h
    · exact absurd h4.2 h.2
    · exact absurd h4.1 h.1
  rw [if_neg h4]
  refine ⟨Res.noPanic_ok _, fun _ => ⟨not_not.1 fun h => h1 (hdeg.2 h), not_not.1 h2, ?_⟩, fun _ => rfl⟩
  tauto

theorem tryNew_spec (cfg : Bool) (v : Nat) : (PlaintextModulus.tryNew cfg v).NoPanic ∧
    ∀ t, PlaintextModulus.tryNew cfg v = Res.ok t ↔
      ((∃ m, Modulus.new cfg v = some (.ok m) ∧ (2 ≤ v ∧ v < 2 ^ 62) ∧ t = ⟨v, some m⟩) ∨ (2 ^ 64 ≤ v ∧ t = ⟨v, none⟩)) := by
  unfold PlaintextModulus.tryNew
  by_cases h : v < 2 ^ 64
  · rw [if_pos h]
    by_cases hv : 2 ≤ v ∧ v < 2 ^ 62
    · obtain ⟨m, hm, hm'⟩ := Modulus.new_eq_ok (cfg := cfg) hv
      rw [hm, Res.lift_some, Res.ok_bind]
      refine ⟨Res.noPanic_ok _, fun t => ?_⟩
      simp only [Res.pure_eq]
      rw [Res.ok_inj]
      constructor
      · rintro rfl; exact Or.inl ⟨m, rfl, hv, rfl⟩
      · rintro (⟨m', h1, -, h2⟩ | ⟨h1, -⟩)
        · cases h1; exact h2.symm
        · omega
    · rw [Modulus.new_eq_error hv, Res.lift_some, Res.ok_bind]
      refine ⟨Res.noPanic_err _, fun t => ⟨fun hh => absurd hh Res.err_ne_ok, ?_⟩⟩
      rintro (⟨m', h1, h2, -⟩ | ⟨h1, -⟩)
      · exact absurd h2 hv
      · omega
  · rw [if_neg h]
    refine ⟨Res.noPanic_ok _, fun t => ?_⟩
    rw [Res.pure_eq, Res.ok_inj]
    constructor
    · rintro rfl; exact Or.inr ⟨by omega, rfl⟩
    · rintro (⟨m', h1, h2, -⟩ | ⟨h1, h2⟩)
      · omega
      · exact h2.symm

theorem count_indices (moduli : List Nat) (m : Nat) : ((List.range moduli.length).filter fun i => moduli[i]? = some m).length = moduli.count m := by
  induction moduli using List.reverseRecOn with
  | nil => rfl
  | append_singleton l a ih =>
    rw [List.length_append, List.length_singleton, List.range_succ, List.filter_append, List.length_append, List.count_append, ← ih]
    congr 1
    · congr 1
      refine List.filter_congr fun i hi => ?_
      rw [List.getElem?_append_left (List.mem_range.1 hi)]
    · simp only [List.filter_cons, List.filter_nil, List.getElem?_concat_length, List.count_cons, List.count_nil]
      by_cases h : a = m <;> simp [h]

theorem validateEach_spec (cfg : Bool) (moduli : List Nat) : ∀ (rest : List Nat) (index : Nat),
    (validateEach cfg moduli rest index).NoPanic ∧
    (validateEach cfg moduli rest index = Res.ok () ↔ ∀ m ∈ rest, (2 ≤ m ∧ m < 2 ^ 62) ∧ moduli.count m ≤ 1)
  | [], index => ⟨Res.noPanic_ok _, fun _ => by simp, fun _ => rfl⟩
  | m :: ms, index => by
    obtain ⟨ih1, ih2⟩ := validateEach_spec cfg moduli ms (index + 1)
    unfold validateEach
    rw [count_indices]
    by_cases hm : 2 ≤ m ∧ m < 2 ^ 62
    · obtain ⟨q, hq, -⟩ := Modulus.new_eq_ok (cfg := cfg) hm
      rw [hq, Res.lift_some, Res.ok_bind]
      simp only
      by_cases hc : moduli.count m > 1
      · rw [if_pos hc]
        refine ⟨Res.noPanic_err _, fun hh => absurd hh Res.err_ne_ok, fun hh => ?_⟩
        have := (hh m (by simp)).2
        omega
      · rw [if_neg hc]
        refine ⟨ih1, ih2.trans ?_⟩
        simp only [List.mem_cons, forall_eq_or_imp]
        exact ⟨fun h => ⟨⟨hm, by omega⟩, h⟩, fun h => h.2⟩
    · rw [Modulus.new_eq_error hm, Res.lift_some, Res.ok_bind]
      exact ⟨Res.noPanic_err _, fun hh => absurd hh Res.err_ne_ok, fun hh => absurd (hh m (by simp)).1 hm⟩

theorem validateCoprimeWith_spec (m : Nat) : ∀ l : List Nat, (validateCoprimeWith m l).NoPanic ∧
    (validateCoprimeWith m l = Res.ok () ↔ ∀ x ∈ l, m.Coprime x)
  | [] => ⟨Res.noPanic_ok _, fun _ => by simp, fun _ => rfl⟩
  | x :: xs => by
    obtain ⟨ih1, ih2⟩ := validateCoprimeWith_spec m xs
    unfold validateCoprimeWith
    rw [gcd_eq]
    by_cases h : m.gcd x ≠ 1
    · rw [if_pos h]
      exact ⟨Res.noPanic_err _, fun hh => absurd hh Res.err_ne_ok, fun hh => absurd (hh x (by simp)) h⟩
    · rw [if_neg h]
      refine ⟨ih1, ih2.trans ?_⟩
      simp only [List.mem_cons, forall_eq_or_imp]
      exact ⟨fun h' => ⟨not_not.1 h, h'⟩, fun h' => h'.2⟩

theorem validateCoprime_spec : ∀ l : List Nat, (validateCoprime l).NoPanic ∧ (validateCoprime l = Res.ok () ↔ l.Pairwise Nat.Coprime)
  | [] => ⟨Res.noPanic_ok _, fun _ => .nil, fun _ => rfl⟩
  | m :: ms => by
    obtain ⟨ih1, ih2⟩ := validateCoprime_spec ms
    obtain ⟨h1, h2⟩ := validateCoprimeWith_spec m ms
    unfold validateCoprime
    refine ⟨h1.bind fun _ _ => ih1, ?_⟩
    rw [Res.bind_eq_ok, List.pairwise_cons, ← h2, ← ih2]
    exact ⟨fun ⟨⟨⟩, a, c⟩ => ⟨a, c⟩, fun ⟨a, c⟩ => ⟨(), a, c⟩⟩

theorem validateNttFriendly_spec (degree : Nat) : ∀ (l : List Nat) (index : Nat), (validateNttFriendly degree l index).NoPanic ∧
    (validateNttFriendly degree l index = Res.ok () ↔ ∀ m ∈ l, m % (2 * degree) = 1 ∧ m.Prime)
  | [], _ => ⟨Res.noPanic_ok _, fun _ => by simp, fun _ => rfl⟩
  | m :: ms, index => by
    obtain ⟨ih1, ih2⟩ := validateNttFriendly_spec degree ms (index + 1)
    unfold validateNttFriendly
    have hp : isPrime m = false ↔ ¬ m.Prime := by simp [isPrime]
    by_cases h : m % (2 * degree) ≠ 1 ∨ isPrime m = false
    · rw [if_pos h]
      refine ⟨Res.noPanic_err _, fun hh => absurd hh Res.err_ne_ok, fun hh => ?_⟩
      obtain ⟨a, b⟩ := hh m (by simp)
      rcases h with h | h
      · exact absurd a h
      · exact absurd b (hp.1 h)
    · rw [if_neg h]
      refine ⟨ih1, ih2.trans ?_⟩
      rw [not_or, not_not, hp, not_not] at h
      simp only [List.mem_cons, forall_eq_or_imp]
      exact ⟨fun h' => ⟨h, h'⟩, fun h' => h'.2⟩

theorem validatePlaintextCoprime_spec (t : Nat) : ∀ (l : List Nat) (index : Nat), (validatePlaintextCoprime t l index).NoPanic ∧
    (validatePlaintextCoprime t l index = Res.ok () ↔ ∀ m ∈ l, t.Coprime m)
  | [], _ => ⟨Res.noPanic_ok _, fun _ => by simp, fun _ => rfl⟩
  | m :: ms, index => by
    obtain ⟨ih1, ih2⟩ := validatePlaintextCoprime_spec t ms (index + 1)
    unfold validatePlaintextCoprime
    have e : gcd (t % m) m = t.gcd m := by rw [gcd_eq, ← Nat.gcd_rec, Nat.gcd_comm]
    rw [e]
    by_cases h : t.gcd m ≠ 1
    · rw [if_pos h]
      exact ⟨Res.noPanic_err _, fun hh => absurd hh Res.err_ne_ok, fun hh => absurd (hh m (by simp)) h⟩
    · rw [if_neg h]
      refine ⟨ih1, ih2.trans ?_⟩
      simp only [List.mem_cons, forall_eq_or_imp]
      exact ⟨fun h' => ⟨not_not.1 h, h'⟩, fun h' => h'.2⟩

/-- What the validation of the moduli accepts. -/
structure ModuliOK (degree : Nat) (moduli : List Nat) (t : Nat) : Prop where
  nodup : moduli.Nodup
  range : ∀ m ∈ moduli, 2 ≤ m ∧ m < 2 ^ 62
  ntt : ∀ m ∈ moduli, m % (2 * degree) = 1
  prime : ∀ m ∈ moduli, m.Prime
  lt : t < moduli.prod
  coprime : ∀ m ∈ moduli, t.Coprime m

theorem validateModuli_spec (cfg : Bool) (degree : Nat) (moduli : List Nat) (t : Nat) : (validateModuli cfg degree moduli t).NoPanic ∧
    (validateModuli cfg degree moduli t = Res.ok () ↔ ModuliOK degree moduli t) := by
  obtain ⟨a1, a2⟩ := validateEach_spec cfg moduli moduli 0
  obtain ⟨b1, b2⟩ := validateCoprime_spec moduli
  obtain ⟨c1, c2⟩ := validateNttFriendly_spec degree moduli 0
  obtain ⟨d1, d2⟩ := validatePlaintextCoprime_spec t moduli 0
  unfold validateModuli
  constructor
  · refine a1.bind fun _ _ => b1.bind fun _ _ => c1.bind fun _ _ => ?_
    split
    · exact Res.noPanic_err _
    · exact d1
  · simp only [Res.bind_eq_ok, exists_const, a2, b2, c2]
    constructor
    · rintro ⟨h1, h2, h3, h4⟩
      split at h4
      · exact absurd h4 Res.err_ne_ok
      · rename_i hlt
        refine ⟨List.nodup_iff_count_le_one.2 fun m => ?_, fun m hm => (h1 m hm).1, fun m hm => (h3 m hm).1, fun m hm => (h3 m hm).2, by omega, d2.1 h4⟩
        by_cases hm : m ∈ moduli
        · exact (h1 m hm).2
        · rw [List.count_eq_zero_of_not_mem hm]; omega
    · intro h
      refine ⟨fun m hm => ⟨h.range m hm, List.nodup_iff_count_le_one.1 h.nodup m⟩, ?_, fun m hm => ⟨h.ntt m hm, h.prime m hm⟩, ?_⟩
      · exact h.nodup.imp_of_mem fun {x y} hx hy hxy => (Nat.coprime_primes (h.prime x hx) (h.prime y hy)).2 hxy
      · rw [if_neg (by have := h.lt; omega)]
        exact d2.2 h.coprime

/-! ### Generation of moduli -/
open Props (IsCandidate)

/-- The prime chosen is the largest candidate outside `acc`; failure means that there is none. -/
theorem freshPrime_spec {size degree needed available : Nat} (h10 : 10 ≤ size) (h62 : size ≤ 62) (hd : 1 ≤ degree) (acc : List Nat) :
    ∀ (ub : Nat), 0 < ub → ub ≤ 2 ^ size →
    (∃ p, freshPrime size degree needed available acc ub = Res.ok p ∧ IsCandidate size (2 * degree) ub p ∧ p ∉ acc ∧
      ∀ q, IsCandidate size (2 * degree) ub q → q ∉ acc → q ≤ p) ∨
    (freshPrime size degree needed available acc ub = Res.err (.notEnoughPrimes size degree needed available) ∧ ∀ q, IsCandidate size (2 * degree) ub q → q ∈ acc) := by
  intro ub
  induction ub using Nat.strong_induction_on with
  | _ ub ih =>
    intro h0 hub
    rw [freshPrime]
    rcases Props.C09_generate_prime h10 h62 (by omega : 2 ≤ 2 * degree) h0 hub with ⟨p, h1, h2, h3⟩ | ⟨h1, h2⟩
    · rw [h1, Res.lift_some, Res.ok_bind]
      simp only
      by_cases hp : p ∉ acc
      · rw [if_pos hp]
        exact Or.inl ⟨p, rfl, h2, hp, fun q hq _ => h3 q hq⟩
      · rw [if_neg hp, dif_pos h2.2.2.2.2]
        have hlt : ∀ q, IsCandidate size (2 * degree) ub q → q ∉ acc → IsCandidate size (2 * degree) p q := by
          intro q hq hqa
          refine ⟨hq.1, hq.2.1, hq.2.2.1, hq.2.2.2.1, ?_⟩
          have := h3 q hq
          rcases Nat.lt_or_eq_of_le this with h | h
          · exact h
          · rw [h] at hqa; exact absurd hqa hp
        rcases ih p h2.2.2.2.2 h2.1.pos (by have := h2.2.2.1; omega) with ⟨p', e1, e2, e3, e4⟩ | ⟨e1, e2⟩
        · refine Or.inl ⟨p', e1, ⟨e2.1, e2.2.1, e2.2.2.1, e2.2.2.2.1, e2.2.2.2.2.trans h2.2.2.2.2⟩, e3, fun q hq hqa => e4 q (hlt q hq hqa) hqa⟩
        · refine Or.inr ⟨e1, fun q hq => ?_⟩
          by_contra hqa
          exact hqa (e2 q (hlt q hq hqa))
    · rw [h1, Res.lift_some, Res.ok_bind]
      exact Or.inr ⟨rfl, fun q hq => absurd hq (h2 q)⟩

/-- A prime with the given number of bits that is congruent to 1 modulo `2N`. -/
def IsModulus (degree size p : Nat) : Prop := p.Prime ∧ 2 ^ (size - 1) ≤ p ∧ p < 2 ^ size ∧ p % (2 * degree) = 1

theorem isCandidate_top {size degree p : Nat} : IsCandidate size (2 * degree) (2 ^ size) p ↔ IsModulus degree size p := by
  unfold IsCandidate IsModulus; tauto

/-- What the generation of moduli returns: the moduli, or an error that names a size out of range or a size with too few primes. -/
theorem generateModuli_spec {degree : Nat} (hd : 1 ≤ degree) {required : Nat → Nat} : ∀ (sizes : List Nat) (i : Nat) (acc : List Nat) (generated : Nat → Nat), acc.Nodup →
    (generateModuli degree required sizes i acc generated).NoPanic ∧
    (∀ l, generateModuli degree required sizes i acc generated = Res.ok l → ∃ l', l = acc ++ l' ∧ l.Nodup ∧ List.Forall₂ (fun size p => 10 ≤ size ∧ size ≤ 62 ∧ IsModulus degree size p) sizes l' ∧
      ∀ j size p, sizes[j]? = some size → l'[j]? = some p → ∀ q, IsModulus degree size q → q ∉ acc ++ l'.take j → q ≤ p) ∧
    (∀ e, generateModuli degree required sizes i acc generated = Res.err e → (∃ j s, sizes[j]? = some s ∧ (62 < s ∨ s < 10) ∧ e = .invalidModulusSize (i + j) s) ∨
      ∃ j s l', sizes[j]? = some s ∧ (10 ≤ s ∧ s ≤ 62) ∧ e = .notEnoughPrimes s degree (required s) (generated s + (sizes.take j).count s) ∧ (acc ++ l').Nodup ∧
        List.Forall₂ (fun size p => 10 ≤ size ∧ size ≤ 62 ∧ IsModulus degree size p) (sizes.take j) l' ∧ ∀ q, IsModulus degree s q → q ∈ acc ++ l')
  | [], i, acc, generated, ha => by
    refine ⟨Res.noPanic_ok _, fun l h => ?_, fun e h => absurd h.symm Res.err_ne_ok⟩
    rw [generateModuli, Res.ok_inj] at h
    exact ⟨[], by simp [h], h ▸ ha, .nil, by simp⟩
  | size :: sizes, i, acc, generated, ha => by
    unfold generateModuli
    by_cases hs : size > 62 ∨ size < 10
    · rw [if_pos hs]
      refine ⟨Res.noPanic_err _, fun l h => absurd h Res.err_ne_ok, fun e h => Or.inl ⟨0, size, rfl, hs, ?_⟩⟩
      rw [Res.err_inj] at h
      exact h.symm
    · rw [if_neg hs]
      have hpow : 1 <<< size = 2 ^ size := Nat.one_shiftLeft size
      rcases freshPrime_spec (size := size) (degree := degree) (needed := required size) (available := generated size) (by omega) (by omega) hd acc (1 <<< size) (by rw [hpow]; positivity) (by rw [hpow]) with
        ⟨p, h1, h2, h3, h4⟩ | ⟨h1, h2⟩
      · rw [h1, Res.ok_bind]
        rw [hpow] at h2 h4
        have hnd : (acc ++ [p]).Nodup := by
          rw [List.nodup_append]
          refine ⟨ha, by simp, ?_⟩
          intro x hx y hy hxy
          rw [List.mem_singleton] at hy
          subst hy; subst hxy; exact h3 hx
        obtain ⟨r1, r2, r3⟩ := generateModuli_spec hd sizes (i + 1) (acc ++ [p]) (Function.update generated size (generated size + 1)) hnd
        refine ⟨r1, fun l hl => ?_, fun e he => ?_⟩
        · obtain ⟨l', e1, e2, e3, e4⟩ := r2 l hl
          refine ⟨p :: l', by rw [e1, List.append_assoc]; rfl, e2, .cons ⟨by omega, by omega, isCandidate_top.1 h2⟩ e3, fun j s p' hj hj' q hq hqa => ?_⟩
          cases j with
          | zero =>
            rw [List.getElem?_cons_zero, Option.some.injEq] at hj hj'
            subst hj; subst hj'
            rw [List.take_zero, List.append_nil] at hqa
            exact h4 q (isCandidate_top.2 hq) hqa
          | succ j =>
            rw [List.getElem?_cons_succ] at hj hj'
            rw [List.take_succ_cons, List.append_cons] at hqa
            exact e4 j s p' hj hj' q hq hqa
        · rcases r3 e he with ⟨j, s, e1, e2, e3⟩ | ⟨j, s, l', e1, e2, e3, e4, e5, e6⟩
          · exact Or.inl ⟨j + 1, s, by rw [List.getElem?_cons_succ]; exact e1, e2, by rw [e3]; congr 1; omega⟩
          · rw [List.append_assoc] at e4 e6
            refine Or.inr ⟨j + 1, s, p :: l', by rw [List.getElem?_cons_succ]; exact e1, e2, ?_, e4, .cons ⟨by omega, by omega, isCandidate_top.1 h2⟩ e5, e6⟩
            rw [e3, List.take_succ_cons, List.count_cons]
            congr 1
            by_cases hss : s = size
            · subst hss; rw [Function.update_self]; simp; omega
            · rw [Function.update_of_ne hss]
              have : (size == s) = false := by simpa using fun h => hss h.symm
              rw [this]; simp
      · rw [h1, Res.err_bind]
        refine ⟨Res.noPanic_err _, fun l h => absurd h Res.err_ne_ok, fun e he => Or.inr ⟨0, size, [], rfl, ⟨by omega, by omega⟩, ?_, by rw [List.append_nil]; exact ha, .nil, ?_⟩⟩
        · rw [Res.err_inj] at he; rw [← he]; simp
        · intro q hq
          rw [List.append_nil]
          exact h2 q (by rw [hpow]; exact isCandidate_top.2 hq)

/-- The extended basis consists of distinct 62-bit primes outside the moduli; failure means that there are not enough. -/
theorem extendedBasis_spec {degree needed : Nat} (hd : 1 ≤ degree) (moduli : List Nat) : ∀ (ub : Nat) (acc : List Nat), 0 < ub → ub ≤ 2 ^ 62 →
    acc.Nodup → acc.length ≤ needed → (∀ p ∈ acc, IsModulus degree 62 p ∧ p ∉ moduli ∧ ub ≤ p) →
    (∀ p, IsModulus degree 62 p → ub ≤ p → p ∉ moduli → p ∈ acc) →
    (∃ l, extendedBasis degree needed moduli acc ub = Res.ok l ∧ l.Nodup ∧ l.length = needed ∧ ∀ p ∈ l, IsModulus degree 62 p ∧ p ∉ moduli) ∨
    (∃ l : List Nat, extendedBasis degree needed moduli acc ub = Res.err (.notEnoughPrimes 62 degree needed l.length) ∧ l.length < needed ∧ (∀ p, IsModulus degree 62 p → p ∉ moduli → p ∈ l) ∧
      l.Nodup ∧ ∀ p ∈ l, IsModulus degree 62 p ∧ p ∉ moduli) := by
  intro ub
  induction ub using Nat.strong_induction_on with
  | _ ub ih =>
    intro acc h0 hub hnd hlen hacc hall
    rw [extendedBasis]
    by_cases hl : acc.length = needed
    · rw [if_pos hl]
      exact Or.inl ⟨acc, rfl, hnd, hl, fun p hp => ⟨(hacc p hp).1, (hacc p hp).2.1⟩⟩
    rw [if_neg hl]
    rcases Props.C09_generate_prime (by norm_num) (by norm_num) (by omega : 2 ≤ 2 * degree) h0 hub with ⟨p, h1, h2, h3⟩ | ⟨h1, h2⟩
    · rw [h1, Res.lift_some, Res.ok_bind]
      simp only
      rw [dif_pos h2.2.2.2.2]
      have hpm : IsModulus degree 62 p := ⟨h2.1, h2.2.1, h2.2.2.1, h2.2.2.2.1⟩
      have hpa : p ∉ acc := fun h => by have := (hacc p h).2.2; have := h2.2.2.2.2; omega
      have hstep : ∀ q, IsModulus degree 62 q → p ≤ q → q ≠ p → ub ≤ q := by
        intro q hq hle hne
        by_contra hc
        have := h3 q ⟨hq.1, hq.2.1, hq.2.2.1, hq.2.2.2, by omega⟩
        omega
      have hple : p ≤ 2 ^ 62 := by have := h2.2.2.1; omega
      by_cases hm : p ∈ moduli
      · rw [if_neg (by tauto)]
        refine ih p h2.2.2.2.2 acc h2.1.pos hple hnd hlen (fun q hq => ⟨(hacc q hq).1, (hacc q hq).2.1, ?_⟩) fun q hq hle hqm => ?_
        · have := (hacc q hq).2.2
          have := h2.2.2.2.2
          omega
        · exact hall q hq (hstep q hq hle (by rintro rfl; exact hqm hm)) hqm
      · rw [if_pos ⟨hpa, hm⟩]
        refine ih p h2.2.2.2.2 _ h2.1.pos hple ?_ (by rw [List.length_append, List.length_singleton]; omega) (fun q hq => ?_) fun q hq hle hqm => ?_
        · rw [List.nodup_append]
          refine ⟨hnd, by simp, ?_⟩
          intro x hx y hy hxy
          rw [List.mem_singleton] at hy
          subst hy; subst hxy; exact hpa hx
        · rw [List.mem_append, List.mem_singleton] at hq
          rcases hq with hq | rfl
          · have := (hacc q hq).2.2
            have := h2.2.2.2.2
            exact ⟨(hacc q hq).1, (hacc q hq).2.1, by omega⟩
          · exact ⟨hpm, hm, le_refl _⟩
        · rw [List.mem_append, List.mem_singleton]
          by_cases hqp : q = p
          · exact Or.inr hqp
          · exact Or.inl (hall q hq (hstep q hq hle hqp) hqm)
    · rw [h1, Res.lift_some, Res.ok_bind]
      refine Or.inr ⟨acc, rfl, by omega, fun p hp hpm => hall p hp ?_ hpm, hnd, fun p hp => ⟨(hacc p hp).1, (hacc p hp).2.1⟩⟩
      by_contra hc
      exact h2 p ⟨hp.1, hp.2.1, hp.2.2.1, hp.2.2.2, by omega⟩

end ParamsBuilder
end Fhe
