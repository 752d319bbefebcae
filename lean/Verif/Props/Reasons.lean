import Verif.Lemmas.Reasons
import Verif.Props.BfvParams
/-!
# The errors of the parameter builder
-/
namespace Fhe.Props
open ParamsBuilder

variable {b : Build} {s : ParamsBuilder} {e : FheError} {par : BfvParameters}

/-- C90: what an error of the builder says about the request is true. -/
theorem C90_reason (hb : b.OK) (hl : b.Lucky) (h1 : s.moduli.length ≤ 31) (h2 : s.moduliSizes.length ≤ 31) (h : build b s = Res.err e) : Reason s e := by
  unfold build at h
  simp only [Res.bind_eq_err] at h
  rcases h with h | ⟨⟨⟩, hc, h | ⟨t, ht, h | ⟨moduli, hm, h | ⟨⟨⟩, hv, h⟩⟩⟩⟩
  · exact validateConfiguration_err h
  · exact tryNew_err h
  · obtain ⟨⟨n, -, -, hn⟩, -⟩ := (validateConfiguration_spec s).2.1 hc
    exact chooseModuli_err (by rw [hn]; exact Nat.one_le_two_pow) h
  all_goals
    obtain ⟨⟨n, h3, h16, hn⟩, -, -⟩ := (validateConfiguration_spec s).2.1 hc
    have hd : 1 ≤ s.degree := by rw [hn]; exact Nat.one_le_two_pow
    have ht' : (∃ m, Modulus.new b.cfg t.value = some (.ok m) ∧ (2 ≤ t.value ∧ t.value < 2 ^ 62) ∧ t.small = some m) ∨ (2 ^ 64 ≤ t.value ∧ t.small = none) := by
      rcases ((tryNew_spec b.cfg s.plaintext).2 t).1 ht with ⟨m, h1, h2, rfl⟩ | ⟨h2, rfl⟩
      · exact Or.inl ⟨m, h1, h2, rfl⟩
      · exact Or.inr ⟨h2, rfl⟩
    have htv : t.value = s.plaintext := by
      rcases ((tryNew_spec b.cfg s.plaintext).2 t).1 ht with ⟨m, -, h2, rfl⟩ | ⟨h2, rfl⟩ <;> rfl
  · rw [htv] at h
    exact validateModuli_err hd hm h
  · have hmod := (validateModuli_spec b.cfg s.degree moduli t.value).2.1 hv
    have hlen : moduli.length ≤ 31 := by
      rcases chooseModuli_inv hd hm with ⟨-, rfl⟩ | ⟨-, h⟩
      · exact h1
      · rw [← h.length_eq]; exact h2
    have hne : moduli ≠ [] := by
      rintro rfl
      have := hmod.lt
      rw [List.prod_nil] at this
      rcases ht' with ⟨m, -, h2, -⟩ | ⟨h2, -⟩ <;> omega
    have huse := chooseModuli_inUse hd hm
    rw [hn] at hmod h
    rcases assemble_total hb hl h3 h16 s.variance ht' hmod hne hlen with ⟨p, h'⟩ | ⟨l, h', l1, l2, l3, l4⟩
    · rw [h'] at h; exact absurd h.symm Res.err_ne_ok
    · rw [h', Res.err_inj] at h
      subst h
      exact ⟨hn.symm, l1, Or.inr ⟨moduli, huse, rfl, rfl, (ncard_of_list l3 fun p => ⟨fun hp => l2 p hp.1 hp.2, fun hp => l4 p hp⟩).symm⟩⟩

/-- C90: the moduli of parameters that are built from sizes are the largest primes of these sizes. -/
theorem C90_generated (h : build b s = Res.ok par) (hs : s.moduliSizes ≠ []) : LargestPrimes s.degree s.moduliSizes par.moduli := by
  unfold build at h
  simp only [Res.bind_eq_ok] at h
  obtain ⟨⟨⟩, hc, t, -, moduli, hm, ⟨⟩, -, h⟩ := h
  obtain ⟨⟨n, -, -, hn⟩, -⟩ := (validateConfiguration_spec s).2.1 hc
  have hpm : par.moduli = moduli := by
    unfold assemble at h
    simp only [Res.bind_eq_ok] at h
    obtain ⟨_, _, _, _, _, _, _, _, _, _, _, _, h⟩ := h
    rw [Res.pure_eq, Res.ok_inj] at h
    rw [← h]
  rcases chooseModuli_inUse (by rw [hn]; exact Nat.one_le_two_pow) hm with ⟨h', -⟩ | ⟨-, h'⟩
  · exact absurd h' hs
  · rw [hpm]; exact h'

theorem finite_primes (degree size : Nat) (P : Nat → Prop) : {p | PrimeOfSize degree size p ∧ P p}.Finite :=
  (Set.finite_lt_nat (2 ^ size)).subset fun _ hp => hp.1.2.2.1

/-- At least as many as in a list. -/
theorem length_le_ncard {l : List Nat} {S : Set Nat} (hf : S.Finite) (hn : l.Nodup) (h : ∀ p ∈ l, p ∈ S) : l.length ≤ S.ncard := by
  rw [← List.toFinset_card_of_nodup hn, ← Set.ncard_coe_finset]
  exact Set.ncard_le_ncard (fun p hp => h p (by simpa using hp)) hf

/-- Parameters are built only if there is no reason against it. -/
theorem no_reason (hb : b.OK) (h : build b s = Res.ok par) : ¬ Reason s e := by
  obtain ⟨hv, e1, e2, e3, e4⟩ := C31_sound hb h
  obtain ⟨n, hw, -, -, -, hasm, -⟩ := build_inv hb h
  obtain ⟨basis, hbasis, -⟩ := assemble_basis hasm
  have hd : 1 ≤ par.degree := by rw [hw.degree]; exact Nat.one_le_two_pow
  have huse : InUse s par.moduli := by
    rcases e4 with ⟨h1, h2⟩ | ⟨h1, h2⟩
    · exact Or.inl ⟨h1, h2⟩
    · have hne : s.moduliSizes ≠ [] := by
        intro h0
        rw [h0] at h2
        cases hm : par.moduli with
        | nil => exact hw.ne_nil hm
        | cons => rw [hm] at h2; cases h2
      exact Or.inr ⟨hne, C90_generated h hne⟩
  have hgiven : ∀ i m : Nat, s.moduli[i]? = some m → par.moduli[i]? = some m := by
    intro i m hi
    rcases e4 with ⟨-, h2⟩ | ⟨h1, -⟩
    · rw [h2]; exact hi
    · rw [h1] at hi; simp at hi
  have hinj : ∀ i j m : Nat, i < j → s.moduli[i]? = some m → s.moduli[j]? = some m → False := by
    intro i j m hij hi hj
    obtain ⟨a1, a2⟩ := List.getElem?_eq_some_iff.1 (hgiven i m hi)
    obtain ⟨a3, a4⟩ := List.getElem?_eq_some_iff.1 (hgiven j m hj)
    have := hv.nodup.getElem_inj_iff.1 (a2.trans a4.symm)
    omega
  intro hr
  cases e <;> try exact hr
  case invalidDegree => exact hr.2 (by rw [hr.1, ← e1]; exact hv.pow_two)
  case invalidParametersVariance => exact hr.2 (by rw [hr.1, ← e2]; exact hv.variance_range)
  case conflictingModuli =>
    rcases e4 with ⟨h1, -⟩ | ⟨h1, -⟩
    · exact hr.2 h1
    · exact hr.1 h1
  case missingModuli =>
    rcases huse with ⟨-, h2⟩ | ⟨h1, -⟩
    · exact hw.ne_nil (by rw [h2]; exact hr.1)
    · exact h1 hr.2
  case invalidPlaintextModulus =>
    have := hv.plaintext
    rw [e3, ← hr.1] at this
    rcases this with h | h
    · exact hr.2.2 h
    · have := hr.2.1; omega
  case invalidModulusSize i size =>
    obtain ⟨k1, k2⟩ := List.getElem?_eq_some_iff.1 hr.1
    rcases e4 with ⟨h1, -⟩ | ⟨-, h2⟩
    · simp [h1] at k1
    · have := (List.forall₂_iff_get.1 h2).2 i k1 (by rw [← h2.length_eq]; exact k1)
      simp only [List.get_eq_getElem, k2] at this
      exact hr.2 ⟨this.1, this.2.1⟩
  case notEnoughPrimes size degree needed available =>
    obtain ⟨rfl, hlt, ⟨h10, h62, rfl, rfl⟩ | ⟨moduli, hm, rfl, rfl, rfl⟩⟩ := hr
    · rcases e4 with ⟨h1, -⟩ | ⟨-, h2⟩
      · simp [h1] at hlt
      · rw [← count_size (by omega : 1 ≤ size) h2] at hlt
        have := length_le_ncard (S := {p | PrimeOfSize s.degree size p}) ((Set.finite_lt_nat (2 ^ size)).subset fun _ hp => hp.2.2.1)
          (hv.nodup.filter fun p => decide (p.log2 + 1 = size)) fun p hp => ?_
        · omega
        · rw [List.mem_filter, decide_eq_true_eq] at hp
          obtain ⟨k, hk, hk'⟩ := List.mem_iff_getElem.1 hp.1
          have hk2 := (List.forall₂_iff_get.1 h2).2 k (by rw [h2.length_eq]; exact hk) hk
          have h3 := hk2.2.2
          simp only [List.get_eq_getElem, hk'] at h3
          have h4 := log2_isModulus h3 (by have := hk2.1; simp only [List.get_eq_getElem] at this; omega)
          rw [hp.2] at h4
          rw [← h4] at h3
          exact h3
    · obtain rfl := InUse.unique hm huse
      rcases extendedBasis_spec (degree := par.degree) (needed := par.moduli.length + 1) hd par.moduli (1 <<< 62) [] (by decide) (by decide) .nil (by simp) (by simp)
        (fun p hp hle _ => by have := hp.2.2.1; rw [Nat.one_shiftLeft] at hle; omega) with ⟨l, h1, h2, h3', h4⟩ | ⟨l, h1, -⟩
      swap
      · rw [hbasis] at h1; exact absurd h1.symm Res.err_ne_ok
      · have := length_le_ncard (finite_primes par.degree 62 fun p => p ∉ par.moduli) h2 h4
        rw [e1] at this
        omega
  case invalidCiphertextModulus i m =>
    have := List.mem_of_getElem? (hgiven i m hr.1)
    exact hr.2 ⟨(hv.prime m this).two_le, hv.range m this⟩
  case duplicateModuli m indices =>
    obtain ⟨h1, h2, h3⟩ := hr
    match indices, h1 with
    | i :: j :: _, _ =>
      have hij := List.rel_of_pairwise_cons h2 (List.mem_cons_self (a := j))
      exact hinj i j m hij ((h3 i).1 (by simp)) ((h3 j).1 (by simp))
  case moduliNotCoprime m m' g =>
    obtain ⟨⟨i, j, hij, h1, h2⟩, rfl, h3⟩ := hr
    have p1 := hv.prime m (List.mem_of_getElem? (hgiven i m h1))
    have p2 := hv.prime m' (List.mem_of_getElem? (hgiven j m' h2))
    exact h3 ((Nat.coprime_primes p1 p2).2 fun hm => hinj i j m hij h1 (by rw [hm]; exact h2))
  case ciphertextModulusNotNttFriendly i m degree =>
    obtain ⟨h1, rfl, h3⟩ := hr
    have := List.mem_of_getElem? (hgiven i m h1)
    exact h3 ⟨hv.prime m this, by rw [← e1]; exact hv.ntt m this⟩
  case plaintextExceedsCiphertext =>
    obtain ⟨rfl, h1, moduli, hm, rfl⟩ := hr
    obtain rfl := InUse.unique hm huse
    have := hv.lt
    omega
  case plaintextNotCoprime =>
    obtain ⟨rfl, rfl, h1, moduli, hm, h2⟩ := hr
    obtain rfl := InUse.unique hm huse
    have := hv.coprime
    rw [e3] at this
    exact h1 (Nat.Coprime.coprime_dvd_right (List.dvd_prod (List.mem_of_getElem? h2)) this)

/-- C90: a request is accepted exactly if there is no reason against it, and refused with an error otherwise. -/
theorem C90_accepts (hb : b.OK) (hl : b.Lucky) (h1 : s.moduli.length ≤ 31) (h2 : s.moduliSizes.length ≤ 31) :
    ((∃ par, build b s = Res.ok par) ↔ ∀ e, ¬ Reason s e) ∧ ((∃ e, build b s = Res.err e) ↔ ∃ e, Reason s e) := by
  have hcases : (∃ par, build b s = Res.ok par) ∨ ∃ e, build b s = Res.err e := Res.noPanic_iff.1 (C31_no_panic hb hl s h1 h2)
  constructor
  · constructor
    · rintro ⟨par, h⟩ e
      exact no_reason hb h
    · intro h
      rcases hcases with h' | ⟨e, h'⟩
      · exact h'
      · exact absurd (C90_reason hb hl h1 h2 h') (h e)
  · constructor
    · rintro ⟨e, h⟩
      exact ⟨e, C90_reason hb hl h1 h2 h⟩
    · rintro ⟨e, h⟩
      rcases hcases with ⟨par, h'⟩ | h'
      · exact absurd h (no_reason hb h')
      · exact h'

/-- For degree 128 there is one prime of ten bits. -/
theorem primes_128 : {p | PrimeOfSize 128 10 p} = {769} := by
  ext p
  simp only [Set.mem_ofPred_eq, Set.mem_singleton_iff]
  constructor
  · rintro ⟨h1, h2, h3, h4⟩
    have : p = 513 ∨ p = 769 := by omega
    rcases this with rfl | rfl
    · norm_num at h1
    · rfl
  · rintro rfl
    refine ⟨by norm_num, by norm_num, by norm_num, by norm_num⟩

/-- A request for two of them is refused. -/
example : Reason { degree := 128, plaintext := 17, variance := 1, moduliSizes := [10, 10] } (.notEnoughPrimes 10 128 2 1) ∧
    ∃ e, build luckyBuild { degree := 128, plaintext := 17, variance := 1, moduliSizes := [10, 10] } = Res.err e := by
  have h : Reason { degree := 128, plaintext := 17, variance := 1, moduliSizes := [10, 10] } (.notEnoughPrimes 10 128 2 1) :=
    ⟨rfl, by norm_num, Or.inl ⟨by norm_num, by norm_num, rfl, by rw [primes_128, Set.ncard_singleton]⟩⟩
  exact ⟨h, (C90_accepts luckyBuild_ok luckyBuild_lucky (by simp) (by simp)).2.2 ⟨_, h⟩⟩

/-- A request for one is accepted, and the modulus is 769. -/
example : ∃ par, build luckyBuild { degree := 128, plaintext := 17, variance := 1, moduliSizes := [10] } = Res.ok par ∧ par.moduli = [769] := by
  have hp : ∀ q, PrimeOfSize 128 10 q ↔ q = 769 := fun q => by
    have := Set.ext_iff.1 primes_128 q
    simpa using this
  have huse : InUse { degree := 128, plaintext := 17, variance := 1, moduliSizes := [10] } [769] := by
    refine Or.inr ⟨by simp, rfl, ?_, ?_⟩
    · rintro (_ | i) size p h1 h2 <;> simp at h1 h2
      subst h1; subst h2
      exact ⟨(hp _).2 rfl, by simp⟩
    · rintro (_ | i) size p h1 h2 q hq - <;> simp at h1 h2
      subst h1; subst h2
      exact ((hp q).1 hq).le
  have hacc : ∀ e, ¬ Reason { degree := 128, plaintext := 17, variance := 1, moduliSizes := [10] } e := by
    intro e hr
    cases e <;> try exact hr
    case invalidDegree => exact hr.2 ⟨7, by norm_num, by norm_num, by rw [hr.1]; norm_num⟩
    case invalidParametersVariance => exact hr.2 (by rw [hr.1]; norm_num)
    case conflictingModuli => exact hr.1 rfl
    case missingModuli => exact absurd hr.2 (by simp)
    case invalidPlaintextModulus => exact hr.2.2 (by rw [hr.1]; norm_num)
    case invalidModulusSize i size =>
      obtain ⟨h1, h2⟩ := hr
      rcases i with _ | i <;> simp at h1
      omega
    case notEnoughPrimes size degree needed available =>
      obtain ⟨rfl, hlt, ⟨h10, h62, rfl, rfl⟩ | ⟨moduli, hm, rfl, rfl, rfl⟩⟩ := hr
      · by_cases hs : size = 10
        · subst hs
          simp only [primes_128, Set.ncard_singleton] at hlt
          simp at hlt
        · have : (10 == size) = false := by simpa using fun h => hs h.symm
          simp [List.count_cons, this] at hlt
      · obtain rfl := InUse.unique hm huse
        have hf := finite_primes 128 62 fun p => p ∉ [769]
        refine enough_primes (n := 7) (by norm_num) (moduli := [769]) (by simp) (by simp) (l := hf.toFinset.toList) ?_ fun p h1 h2 => ?_
        · rw [Finset.length_toList, ← Set.ncard_eq_toFinset_card _ hf]
          exact hlt
        · rw [Finset.mem_toList, Set.Finite.mem_toFinset]
          exact ⟨h1, h2⟩
    case invalidCiphertextModulus => exact absurd hr.1 (by simp)
    case duplicateModuli m indices =>
      obtain ⟨h1, -, h3⟩ := hr
      match indices, h1 with
      | i :: _, _ => exact absurd ((h3 i).1 (by simp)) (by simp)
    case moduliNotCoprime =>
      obtain ⟨⟨i, j, -, h1, -⟩, -⟩ := hr
      simp at h1
    case ciphertextModulusNotNttFriendly => exact absurd hr.1 (by simp)
    case plaintextExceedsCiphertext =>
      obtain ⟨rfl, h1, moduli, hm, rfl⟩ := hr
      obtain rfl := InUse.unique hm huse
      simp at h1
    case plaintextNotCoprime m i g =>
      obtain ⟨rfl, rfl, h1, moduli, hm, h2⟩ := hr
      obtain rfl := InUse.unique hm huse
      rcases i with _ | i <;> simp at h2
      subst h2
      exact h1 (by norm_num)
  obtain ⟨par, h⟩ := (C90_accepts luckyBuild_ok luckyBuild_lucky (by simp) (by simp)).1.2 hacc
  exact ⟨par, h, InUse.unique (Or.inr ⟨by simp, C90_generated h (by simp)⟩) huse⟩

end Fhe.Props
