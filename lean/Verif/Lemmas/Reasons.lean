import Verif.Spec.Reasons
import Verif.Lemmas.Agree
/-! Every error of the parameter builder tells the truth. -/
namespace Fhe
namespace ParamsBuilder
variable {b : Build}

theorem validateConfiguration_err {s : ParamsBuilder} {e : FheError} (h : s.validateConfiguration = Res.err e) : Reason s e := by
  have hspec := (validateConfiguration_spec { s with variance := 1, moduli := [0], moduliSizes := [] }).2
  unfold validateConfiguration at h hspec
  simp only at hspec
  split at h
  · rename_i h1
    rw [Res.err_inj] at h
    subst h
    refine ⟨rfl, fun hn => ?_⟩
    rw [if_pos h1] at hspec
    exact absurd (hspec.2 ⟨hn, by norm_num, by simp⟩) Res.err_ne_ok
  split at h
  · rename_i h1
    rw [Res.err_inj] at h
    subst h
    exact ⟨rfl, h1⟩
  split at h
  · rename_i h1
    rw [Res.err_inj] at h
    subst h
    exact h1
  split at h
  · rename_i h1
    rw [Res.err_inj] at h
    subst h
    exact h1
  · exact absurd h.symm Res.err_ne_ok

theorem tryNew_err {s : ParamsBuilder} {e : FheError} {cfg : Bool} (h : PlaintextModulus.tryNew cfg s.plaintext = Res.err e) : Reason s e := by
  unfold PlaintextModulus.tryNew at h
  split at h
  · rename_i h64
    by_cases hv : 2 ≤ s.plaintext ∧ s.plaintext < 2 ^ 62
    · obtain ⟨m, hm, -⟩ := Modulus.new_eq_ok (cfg := cfg) hv
      rw [hm, Res.lift_some, Res.ok_bind] at h
      exact absurd h.symm Res.err_ne_ok
    · rw [Modulus.new_eq_error hv, Res.lift_some, Res.ok_bind] at h
      simp only [Res.err_inj] at h
      subst h
      exact ⟨rfl, h64, hv⟩
  · exact absurd h.symm Res.err_ne_ok

theorem drop_get {l rest : List Nat} {m k : Nat} (h : l.drop k = m :: rest) : l[k]? = some m ∧ l.drop (k + 1) = rest := by
  constructor
  · have := congrArg (fun l => l[0]?) h
    simpa using this
  · rw [← List.drop_drop, h]; rfl

theorem validateEach_err {s : ParamsBuilder} {e : FheError} {cfg : Bool} : ∀ (rest : List Nat) (index : Nat), s.moduli.drop index = rest → validateEach cfg s.moduli rest index = Res.err e → Reason s e
  | [], _, _, h => absurd h.symm Res.err_ne_ok
  | m :: ms, index, hr, h => by
    obtain ⟨h1, h2⟩ := drop_get hr
    unfold validateEach at h
    by_cases hm : 2 ≤ m ∧ m < 2 ^ 62
    · obtain ⟨q, hq, -⟩ := Modulus.new_eq_ok (cfg := cfg) hm
      rw [hq, Res.lift_some, Res.ok_bind] at h
      simp only at h
      split at h
      · rename_i hc
        rw [Res.err_inj] at h
        subst h
        refine ⟨hc, (List.pairwise_lt_range).filter _, fun i => ?_⟩
        rw [List.mem_filter, List.mem_range]
        simp only [decide_eq_true_eq]
        exact ⟨fun h => h.2, fun h => ⟨(List.getElem?_eq_some_iff.1 h).1, h⟩⟩
      · exact validateEach_err ms (index + 1) h2 h
    · rw [Modulus.new_eq_error hm, Res.lift_some, Res.ok_bind] at h
      simp only [Res.err_inj] at h
      subst h
      exact ⟨h1, hm⟩

theorem validateCoprimeWith_err {s : ParamsBuilder} {e : FheError} {m i : Nat} (hm : s.moduli[i]? = some m) : ∀ (rest : List Nat) (j : Nat), i < j → s.moduli.drop j = rest →
    validateCoprimeWith m rest = Res.err e → Reason s e
  | [], _, _, _, h => absurd h.symm Res.err_ne_ok
  | x :: xs, j, hij, hr, h => by
    obtain ⟨h1, h2⟩ := drop_get hr
    unfold validateCoprimeWith at h
    rw [gcd_eq] at h
    split at h
    · rename_i hg
      rw [Res.err_inj] at h
      subst h
      exact ⟨⟨i, j, hij, hm, h1⟩, rfl, hg⟩
    · exact validateCoprimeWith_err hm xs (j + 1) (by omega) h2 h

theorem validateCoprime_err {s : ParamsBuilder} {e : FheError} : ∀ (rest : List Nat) (i : Nat), s.moduli.drop i = rest → validateCoprime rest = Res.err e → Reason s e
  | [], _, _, h => absurd h.symm Res.err_ne_ok
  | m :: ms, i, hr, h => by
    obtain ⟨h1, h2⟩ := drop_get hr
    unfold validateCoprime at h
    rw [Res.bind_eq_err] at h
    rcases h with h | ⟨-, -, h⟩
    · exact validateCoprimeWith_err h1 ms (i + 1) (by omega) h2 h
    · exact validateCoprime_err ms (i + 1) h2 h

theorem validateNttFriendly_err {s : ParamsBuilder} {e : FheError} : ∀ (rest : List Nat) (i : Nat), s.moduli.drop i = rest → validateNttFriendly s.degree rest i = Res.err e → Reason s e
  | [], _, _, h => absurd h.symm Res.err_ne_ok
  | m :: ms, i, hr, h => by
    obtain ⟨h1, h2⟩ := drop_get hr
    unfold validateNttFriendly at h
    split at h
    · rename_i hc
      rw [Res.err_inj] at h
      subst h
      refine ⟨h1, rfl, fun hp => ?_⟩
      rcases hc with hc | hc
      · exact hc hp.2
      · have : ¬ m.Prime := by simpa [isPrime] using hc
        exact this hp.1
    · exact validateNttFriendly_err ms (i + 1) h2 h

theorem validatePlaintextCoprime_err {s : ParamsBuilder} {e : FheError} {moduli : List Nat} (hm : InUse s moduli) : ∀ (rest : List Nat) (i : Nat), moduli.drop i = rest →
    validatePlaintextCoprime s.plaintext rest i = Res.err e → Reason s e
  | [], _, _, h => absurd h.symm Res.err_ne_ok
  | m :: ms, i, hr, h => by
    obtain ⟨h1, h2⟩ := drop_get hr
    unfold validatePlaintextCoprime at h
    have hg : gcd (s.plaintext % m) m = s.plaintext.gcd m := by rw [gcd_eq, ← Nat.gcd_rec, Nat.gcd_comm]
    rw [hg] at h
    split at h
    · rename_i hc
      rw [Res.err_inj] at h
      subst h
      exact ⟨rfl, rfl, hc, moduli, hm, h1⟩
    · exact validatePlaintextCoprime_err hm ms (i + 1) h2 h

/-- The number of primes of a size, from a list of them. -/
theorem ncard_of_list {l : List Nat} {P : Nat → Prop} (hn : l.Nodup) (h : ∀ p, P p ↔ p ∈ l) : {p | P p}.ncard = l.length := by
  have : {p | P p} = (l.toFinset : Set Nat) := by ext p; simp [h p]
  rw [this, Set.ncard_coe_finset, List.toFinset_card_of_nodup hn]

theorem log2_isModulus {degree size p : Nat} (h : IsModulus degree size p) (hs : 1 ≤ size) : p.log2 + 1 = size := by
  have h0 : p ≠ 0 := h.1.ne_zero
  have h1 : size - 1 ≤ p.log2 := (Nat.le_log2 h0).2 h.2.1
  have h2 : p.log2 < size := (Nat.log2_lt h0).2 h.2.2.1
  omega

/-- As many of the moduli have a size as were asked for. -/
theorem count_size {degree size : Nat} (hs : 1 ≤ size) : ∀ {sizes l : List Nat}, List.Forall₂ (fun size p => 10 ≤ size ∧ size ≤ 62 ∧ IsModulus degree size p) sizes l →
    (l.filter fun p => decide (p.log2 + 1 = size)).length = sizes.count size
  | _, _, .nil => rfl
  | s :: _, _, .cons (a := _) (b := p) h1 h2 => by
    have ih := count_size hs h2
    have hp := log2_isModulus h1.2.2 (by omega)
    rw [List.filter_cons, List.count_cons, ← ih, hp]
    by_cases h : s = size <;> simp [h]

theorem chooseModuli_err {s : ParamsBuilder} {e : FheError} (hd : 1 ≤ s.degree) (h : s.chooseModuli = Res.err e) : Reason s e := by
  unfold chooseModuli at h
  split at h
  swap
  · exact absurd h.symm Res.err_ne_ok
  rcases (generateModuli_spec hd s.moduliSizes 0 [] _ .nil).2.2 e h with ⟨j, size, e1, e2, rfl⟩ | ⟨j, size, l, e1, e2, rfl, e4, e5, e6⟩
  · rw [Nat.zero_add]
    exact ⟨e1, by omega⟩
  · rw [List.nil_append] at e4 e6
    rw [Nat.zero_add, ← count_size (by omega : 1 ≤ size) e5]
    have hlt : (l.filter fun p => decide (p.log2 + 1 = size)).length < s.moduliSizes.count size := by
      rw [count_size (by omega) e5]
      obtain ⟨hj, hj'⟩ := List.getElem?_eq_some_iff.1 e1
      conv_rhs => rw [← List.take_append_drop j s.moduliSizes, List.count_append]
      have : 0 < (s.moduliSizes.drop j).count size := by
        rw [List.count_pos_iff, ← hj', ← List.getElem_cons_drop hj]
        exact List.mem_cons_self
      omega
    refine ⟨rfl, hlt, Or.inl ⟨e2.1, e2.2, rfl, ?_⟩⟩
    refine (ncard_of_list (e4.filter _) fun p => ?_).symm
    rw [List.mem_filter, decide_eq_true_eq]
    constructor
    · exact fun hp => ⟨e6 p hp, log2_isModulus hp (by omega)⟩
    · rintro ⟨hp, hp'⟩
      obtain ⟨k, hk, rfl⟩ := List.mem_iff_getElem.1 hp
      have := (List.forall₂_iff_get.1 e5).2 k (by rw [e5.length_eq]; exact hk) hk
      have h3 := this.2.2
      have h4 := log2_isModulus h3 (by omega)
      simp only [List.get_eq_getElem] at h3 h4
      rw [hp'] at h4
      rw [← h4] at h3
      exact h3

theorem chooseModuli_inUse {s : ParamsBuilder} {moduli : List Nat} (hd : 1 ≤ s.degree) (h : s.chooseModuli = Res.ok moduli) : InUse s moduli := by
  unfold chooseModuli at h
  split at h
  · rename_i hne
    obtain ⟨l, e1, e2, e3, e4⟩ := (generateModuli_spec hd s.moduliSizes 0 [] _ .nil).2.1 moduli h
    rw [List.nil_append] at e1
    subst e1
    refine Or.inr ⟨hne, e3.length_eq.symm, fun i size p h1 h2 => ?_, fun i size p h1 h2 q hq hq' => e4 i size p h1 h2 q hq hq'⟩
    obtain ⟨k1, k2⟩ := List.getElem?_eq_some_iff.1 h1
    obtain ⟨k3, k4⟩ := List.getElem?_eq_some_iff.1 h2
    have := (List.forall₂_iff_get.1 e3).2 i k1 k3
    simp only [List.get_eq_getElem, k2, k4] at this
    refine ⟨this.2.2, fun hmem => ?_⟩
    obtain ⟨j, hj, hj'⟩ := List.mem_iff_getElem.1 hmem
    rw [List.getElem_take] at hj'
    rw [List.length_take] at hj
    have := (e2.getElem_inj_iff (i := j) (j := i)).1 (hj'.trans k4.symm)
    omega
  · rename_i he
    rw [Res.ok_inj] at h
    exact Or.inl ⟨not_not.1 he, h.symm⟩

/-- The moduli in use are determined. -/
theorem InUse.unique {s : ParamsBuilder} {l l' : List Nat} (h : InUse s l) (h' : InUse s l') : l = l' := by
  rcases h with ⟨h0, rfl⟩ | ⟨h0, h⟩ <;> rcases h' with ⟨h0', rfl⟩ | ⟨h0', h'⟩
  · rfl
  · exact absurd h0 h0'
  · exact absurd h0' h0
  have hkey : ∀ i, l.take i = l'.take i := by
    intro i
    induction i with
    | zero => rfl
    | succ i ih =>
      by_cases hi : i < l.length
      · have hi' : i < l'.length := by rw [h'.length, ← h.length]; exact hi
        have hs : s.moduliSizes[i]? = some s.moduliSizes[i]! := by
          rw [List.getElem!_eq_getElem?_getD, List.getElem?_eq_getElem (by rw [← h.length]; exact hi)]; rfl
        have a := h.fits i _ _ hs (List.getElem?_eq_getElem hi)
        have a' := h'.fits i _ _ hs (List.getElem?_eq_getElem hi')
        have c := h.largest i _ _ hs (List.getElem?_eq_getElem hi) _ a'.1 (by rw [ih]; exact a'.2)
        have c' := h'.largest i _ _ hs (List.getElem?_eq_getElem hi') _ a.1 (by rw [← ih]; exact a.2)
        rw [List.take_succ_eq_append_getElem hi, List.take_succ_eq_append_getElem hi', ih, le_antisymm c' c]
      · have h1 : l.length ≤ i := by omega
        have h2 : l'.length ≤ i := by rw [h'.length, ← h.length]; exact h1
        rw [List.take_of_length_le h1, List.take_of_length_le h2] at ih
        rw [ih]
  have h1 := hkey l.length
  rw [List.take_length] at h1
  rw [h1, List.take_of_length_le (by rw [h.length, h'.length])]

theorem validateModuli_err {s : ParamsBuilder} {moduli : List Nat} {e : FheError} {cfg : Bool} (hd : 1 ≤ s.degree) (hm : s.chooseModuli = Res.ok moduli)
    (h : validateModuli cfg s.degree moduli s.plaintext = Res.err e) : Reason s e := by
  have huse := chooseModuli_inUse hd hm
  have hlast : (if s.plaintext ≥ moduli.prod then Res.err (.plaintextExceedsCiphertext s.plaintext moduli.prod) else validatePlaintextCoprime s.plaintext moduli 0) = Res.err e → Reason s e := by
    intro h
    split at h
    · rename_i hc
      rw [Res.err_inj] at h
      subst h
      exact ⟨rfl, hc, moduli, huse, rfl⟩
    · exact validatePlaintextCoprime_err huse moduli 0 rfl h
  unfold validateModuli at h
  rcases chooseModuli_inv hd hm with ⟨-, rfl⟩ | ⟨hne, h2⟩
  · simp only [Res.bind_eq_err] at h
    rcases h with h | ⟨-, -, h | ⟨-, -, h | ⟨-, -, h⟩⟩⟩
    · exact validateEach_err s.moduli 0 rfl h
    · exact validateCoprime_err s.moduli 0 rfl h
    · exact validateNttFriendly_err s.moduli 0 rfl h
    · exact hlast h
  · have hall : ∀ m ∈ moduli, ∃ size, 10 ≤ size ∧ size ≤ 62 ∧ IsModulus s.degree size m := by
      intro m hmem
      obtain ⟨k, hk, rfl⟩ := List.mem_iff_getElem.1 hmem
      exact ⟨_, (List.forall₂_iff_get.1 h2).2 k (by rw [h2.length_eq]; exact hk) hk⟩
    have hnd : moduli.Nodup := by
      unfold chooseModuli at hm
      rw [if_pos hne] at hm
      exact ((generateModuli_spec hd s.moduliSizes 0 [] _ .nil).2.1 moduli hm).choose_spec.2.1
    have hprime : ∀ m ∈ moduli, m.Prime := fun m hmem => (hall m hmem).choose_spec.2.2.1
    rw [((validateEach_spec cfg moduli moduli 0).2).2, Res.ok_bind, ((validateCoprime_spec moduli).2).2, Res.ok_bind, ((validateNttFriendly_spec s.degree moduli 0).2).2, Res.ok_bind] at h
    · exact hlast h
    · exact fun m hmem => ⟨(hall m hmem).choose_spec.2.2.2.2.2, hprime m hmem⟩
    · exact hnd.imp_of_mem fun {x y} hx hy hxy => (Nat.coprime_primes (hprime x hx) (hprime y hy)).2 hxy
    · intro m hmem
      obtain ⟨size, s1, s2, s3⟩ := hall m hmem
      refine ⟨⟨s3.1.two_le, lt_of_lt_of_le s3.2.2.1 (Nat.pow_le_pow_right (by norm_num) s2)⟩, List.nodup_iff_count_le_one.1 hnd m⟩

end ParamsBuilder
end Fhe
