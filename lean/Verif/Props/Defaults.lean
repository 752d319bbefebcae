import Verif.Props.BfvParams
import Verif.Lemmas.DefaultPrimes
import Verif.Lemmas.BfvMul
/-!
# Property C31: the predefined parameters
-/
namespace Fhe.Props
open ParamsBuilder

variable {b : Build}

/-- C31: the table of predefined parameters: degrees 1024 to 16384 with moduli of 27, 54, 109, 218 and 438 bits in all, the sizes that the
homomorphic encryption standard gives for a security of 128 bits and ternary secrets; each line consists of distinct primes that are one
modulo twice the degree. -/
theorem C31_table : defaultTable.map (fun e => (e.1, Nat.log2 e.2.prod + 1)) = [(1024, 27), (2048, 54), (4096, 109), (8192, 218), (16384, 438)] ∧
    ∀ e ∈ defaultTable, e.2.Nodup ∧ ∀ q ∈ e.2, q.Prime ∧ q % (2 * e.1) = 1 := by
  refine ⟨by decide +kernel, ?_⟩
  simp only [defaultTable, List.forall_mem_cons, List.not_mem_nil, false_imp_iff, implies_true, and_true]
  refine ⟨⟨by decide, prime_132120577⟩, ⟨by decide, prime_18014398492704769⟩, ⟨by decide, prime_68719403009, prime_68719230977, prime_137438822401⟩,
    ⟨by decide, prime_8796092858369, prime_8796092792833, prime_17592186028033, prime_17592185438209, prime_17592184717313⟩,
    ⟨by decide, prime_281474976546817, prime_281474976317441, prime_281474975662081, prime_562949952798721, prime_562949952700417,
      prime_562949952274433, prime_562949951979521, prime_562949951881217, prime_562949951619073⟩⟩

/-- The largest prime of exactly `bits` bits that is one modulo twice the degree. -/
def Largest (degree bits t : Nat) : Prop := FitsSize degree bits t ∧ ∀ t', FitsSize degree bits t' → t' ≤ t

/-- A line of the table can serve plaintext moduli of `bits` bits: there is a prime of that size to choose, and the largest is below the product
of the moduli and is not one of them. -/
def Serves (bits : Nat) (e : Nat × List Nat) : Prop := 10 ≤ bits ∧ bits ≤ 62 ∧ ∃ t, Largest e.1 bits t ∧ t < e.2.prod ∧ t ∉ e.2

theorem table_facts {e : Nat × List Nat} (he : e ∈ defaultTable) : (∃ n, 10 ≤ n ∧ n ≤ 14 ∧ e.1 = 2 ^ n) ∧ e.2 ≠ [] ∧ e.2.length ≤ 9 ∧ ∀ q ∈ e.2, q < 2 ^ 50 ∨ q = 0x3fffffff000001 := by
  simp only [defaultTable, List.mem_cons, List.not_mem_nil, or_false] at he
  rcases he with rfl | rfl | rfl | rfl | rfl
  · exact ⟨⟨10, by decide⟩, by decide⟩
  · exact ⟨⟨11, by decide⟩, by decide⟩
  · exact ⟨⟨12, by decide⟩, by decide⟩
  · exact ⟨⟨13, by decide⟩, by decide⟩
  · exact ⟨⟨14, by decide⟩, by decide⟩

theorem bigPrimes_facts : bigPrimes.Nodup ∧ bigPrimes.length = 10 ∧ ∀ p ∈ bigPrimes, 2 ^ 61 ≤ p ∧ p < 2 ^ 62 ∧ p % 32768 = 1 := by decide +kernel

theorem exists_bigPrime {e : Nat × List Nat} (he : e ∈ defaultTable) (l : List Nat) (hl : l.length ≤ e.2.length) : ∃ p, FitsSize e.1 62 p ∧ p ∉ e.2 ∧ p ∉ l := by
  obtain ⟨⟨n, hn, hn', hN⟩, -, h9, hlt⟩ := table_facts he
  obtain ⟨b1, b2, b3⟩ := bigPrimes_facts
  obtain ⟨p, hp, hpl⟩ : ∃ p ∈ bigPrimes, p ∉ l := by
    by_contra hc
    push Not at hc
    have := (b1.subperm hc).length_le
    omega
  obtain ⟨c1, c2, c3⟩ := b3 p hp
  refine ⟨p, ⟨bigPrimes_prime p hp, c1, c2, ?_⟩, fun hq => ?_, hpl⟩
  · have hd : 2 * e.1 ∣ 32768 := by
      rw [hN, ← pow_succ', show 32768 = 2 ^ 15 by norm_num]; exact pow_dvd_pow 2 (by omega)
    rw [← Nat.mod_mod_of_dvd p hd, c3]
    refine Nat.mod_eq_of_lt ?_
    have : 0 < 2 ^ n := by positivity
    omega
  · rcases hlt p hq with h | h <;> omega

theorem okOrNone_ok {α : Type} (a : α) : (Res.ok a).okOrNone = some (some a) := rfl
theorem okOrNone_err {α : Type} (e : FheError) : (Res.err e : Res α).okOrNone = some none := rfl

theorem entry_spec (hb : b.OK) (hl : b.Lucky) {bits : Nat} (h1 : 1 ≤ bits) (h2 : bits < 64) {e : Nat × List Nat} (he : e ∈ defaultTable) :
    ∃ o, defaultEntry b bits e = some o ∧ (∀ par, o = some par → Serves bits e ∧ par.degree = e.1 ∧ par.moduli = e.2 ∧ Largest par.degree bits par.plaintext.value ∧ par.variance = 10) ∧
      (o = none → ¬ Serves bits e) := by
  obtain ⟨⟨n, hn, hn', hN⟩, hne, h9, hlt⟩ := table_facts he
  obtain ⟨hnd, hpr⟩ := C31_table.2 e he
  unfold defaultEntry
  rw [subU_eq (by omega), Option.bind_eq_bind, Option.bind_some, check_eq (by omega), Option.bind_eq_bind, Option.bind_some]
  by_cases hr : 10 ≤ bits ∧ bits ≤ 62
  swap
  · rw [C09_generate_prime_out_of_range hr]
    exact ⟨none, rfl, by simp, fun _ h => hr ⟨h.1, h.2.1⟩⟩
  have hpow : (2 ^ 64 - 1) >>> (64 - bits) = 2 ^ bits - 1 := by
    rw [Nat.shiftRight_eq_div_pow]
    have : 2 ^ 64 = 2 ^ bits * 2 ^ (64 - bits) := by rw [← pow_add]; congr 1; omega
    have h1 : 0 < 2 ^ bits := by positivity
    have h2 : 0 < 2 ^ (64 - bits) := by positivity
    rw [this]
    refine Nat.div_eq_of_lt_le ?_ ?_
    · rw [Nat.sub_mul, one_mul]; omega
    · rw [Nat.sub_add_cancel h1]; exact Nat.sub_lt (Nat.mul_pos h1 h2) one_pos
  have hbig : 1024 ≤ 2 ^ bits := by
    calc 1024 = 2 ^ 10 := by norm_num
      _ ≤ _ := Nat.pow_le_pow_right (by norm_num) hr.1
  have hdeg : 2 ≤ 2 * e.1 ∧ 3 ≤ e.1 := by
    have : 2 ^ 10 ≤ 2 ^ n := Nat.pow_le_pow_right (by norm_num) hn
    omega
  have hcand : ∀ t, IsCandidate bits (2 * e.1) (2 ^ bits - 1) t ↔ FitsSize e.1 bits t := by
    intro t
    refine ⟨fun ⟨c1, c2, c3, c4, _⟩ => ⟨c1, c2, c3, c4⟩, fun ⟨c1, c2, c3, c4⟩ => ⟨c1, c2, c3, c4, ?_⟩⟩
    by_contra hc
    have hd : 2 * e.1 ∣ 2 ^ bits * (2 * e.1) := Dvd.intro_left _ rfl
    obtain ⟨q, hq⟩ : 2 ∣ 2 * e.1 := ⟨_, rfl⟩
    have ht : t = 2 ^ bits - 1 := by omega
    by_cases hle : n + 1 ≤ bits
    · have hdvd : 2 * e.1 ∣ 2 ^ bits := by rw [hN, ← pow_succ']; exact pow_dvd_pow 2 hle
      obtain ⟨c, hc'⟩ := hdvd
      have h3 : t = 2 * e.1 * (c - 1) + (2 * e.1 - 1) := by
        have hc1 : 1 ≤ c := by
          rcases Nat.eq_zero_or_pos c with rfl | h
          · simp at hc'
          · exact h
        obtain ⟨d, rfl⟩ : ∃ d, c = d + 1 := ⟨c - 1, by omega⟩
        rw [ht, hc', Nat.add_sub_cancel, mul_add, mul_one]; omega
      rw [h3, Nat.mul_add_mod, Nat.mod_eq_of_lt (by omega)] at c4
      omega
    · have h3 : 2 ^ bits ≤ 2 ^ n := Nat.pow_le_pow_right (by norm_num) (by omega)
      rw [Nat.mod_eq_of_lt (by rw [hN]; omega)] at c4
      omega
  rw [hpow]
  rcases C09_generate_prime hr.1 hr.2 hdeg.1 (ub := 2 ^ bits - 1) (by omega) (by omega) with ⟨t, g1, g2, g3⟩ | ⟨g1, g2⟩
  swap
  · rw [g1]
    exact ⟨none, rfl, by simp, fun _ ⟨_, _, t, ht, _⟩ => g2 t ((hcand t).2 ht.1)⟩
  have hbest : Largest e.1 bits t := ⟨(hcand t).1 g2, fun t' ht' => g3 t' ((hcand t').2 ht')⟩
  have huniq : ∀ t', Largest e.1 bits t' → t' = t := fun t' h => le_antisymm (hbest.2 _ h.1) (h.2 _ hbest.1)
  obtain ⟨ht1, ht2, ht3, ht4⟩ := hbest.1
  rw [g1]
  simp only [Option.bind_eq_bind, Option.bind_some]
  have hq64 : ∀ q ∈ e.2, q < 2 ^ 64 := fun q hq => by rcases hlt q hq with h | h <;> omega
  have hval : ∀ (par : BfvParameters), build b (({} : ParamsBuilder).setDegree e.1 |>.setPlaintext t |>.setModuli e.2) = Res.ok par →
      ValidParams par.degree par.variance par.plaintext.value par.moduli ∧ par.degree = e.1 ∧ par.variance = 10 ∧ par.plaintext.value = t ∧ par.moduli = e.2 := by
    intro par hp
    obtain ⟨s0, s1, s2, s3, s4⟩ := C31_sound hb hp
    refine ⟨s0, s1, s2, s3, ?_⟩
    rcases s4 with s4 | s4
    · exact s4.2
    · exact absurd s4.1 hne
  by_cases hs : t < e.2.prod ∧ t ∉ e.2
  · have hvalid : ValidParams e.1 10 t e.2 := by
      refine ⟨⟨n, by omega, by omega, hN⟩, by decide, Or.inl ⟨ht1.two_le, lt_of_lt_of_le ht3 (Nat.pow_le_pow_right (by norm_num) hr.2)⟩, hnd, fun q hq => by rcases hlt q hq with h | h <;> omega,
        fun q hq => (hpr q hq).1, fun q hq => (hpr q hq).2, hs.1, ?_⟩
      refine (Nat.Prime.coprime_iff_not_dvd ht1).2 fun hd => ?_
      obtain ⟨q, hq, hd⟩ := (Prime.dvd_prod_iff ht1.prime).1 hd
      exact hs.2 (((Nat.prime_dvd_prime_iff_eq ht1 (hpr q hq).1).1 hd) ▸ hq)
    have hsum : (e.2.map fun m => 64 - lz64 m).sum ≥ bits := by
      have h3 := prod_lt_pow hq64
      rw [if_neg hne, add_zero] at h3
      by_contra hc
      have : 2 ^ (e.2.map fun m => 64 - lz64 m).sum ≤ 2 ^ (bits - 1) := Nat.pow_le_pow_right (by norm_num) (by omega)
      omega
    rw [if_pos hsum]
    obtain ⟨par, hpar⟩ := C31_complete hb hl (s := ({} : ParamsBuilder).setDegree e.1 |>.setPlaintext t |>.setModuli e.2) rfl hvalid (by show e.2.length ≤ 31; omega) (exists_bigPrime he)
    rw [hpar, okOrNone_ok]
    obtain ⟨-, p1, p2, p3, p4⟩ := hval par hpar
    refine ⟨some par, rfl, ?_, by simp⟩
    rintro par' h
    obtain rfl : par = par' := by simpa using h
    exact ⟨⟨hr.1, hr.2, t, hbest, hs⟩, p1, p4, by rw [p1, p3]; exact hbest, p2⟩
  · have hns : ¬ Serves bits e := fun ⟨_, _, t', h3, h4⟩ => hs (huniq t' h3 ▸ h4)
    split
    · obtain ⟨err, herr⟩ := C31_rejects (b := b) (({} : ParamsBuilder).setDegree e.1 |>.setPlaintext t |>.setModuli e.2) (Or.inr (Or.inr (Or.inr (Or.inr (Or.inr (Or.inl ⟨rfl, fun hv => hs ⟨hv.lt, fun hm => (Nat.Prime.coprime_iff_not_dvd ht1).1 hv.coprime (List.dvd_prod hm)⟩⟩))))))
      rw [herr, okOrNone_err]
      exact ⟨none, rfl, by simp, fun _ => hns⟩
    · exact ⟨none, rfl, by simp, fun _ => hns⟩

/-- C31: exactly the lines of the table that can serve plaintext moduli of the requested size are returned, in order of degree and each
with the largest prime of that size; if there is none, an error. -/
theorem C31_defaults_exact (hb : b.OK) (hl : b.Lucky) {bits : Nat} (h1 : 1 ≤ bits) (h2 : bits < 64) :
    ∃ l : List BfvParameters, defaultParameters128 b bits = (if l = [] then Res.err (.noDefaultParameters bits) else Res.ok l) ∧
      (l.map fun par => (par.degree, par.moduli)).Sublist defaultTable ∧ (∀ e ∈ defaultTable, e ∈ (l.map fun par => (par.degree, par.moduli)) ↔ Serves bits e) ∧
      ∀ par ∈ l, Largest par.degree bits par.plaintext.value ∧ par.variance = 10 := by
  have key : ∀ tbl : List (Nat × List Nat), tbl.Nodup → (∀ e ∈ tbl, e ∈ defaultTable) → ∃ os, tbl.mapM (defaultEntry b bits) = some os ∧
      ((os.filterMap id).map fun par => (par.degree, par.moduli)).Sublist tbl ∧ (∀ e ∈ tbl, e ∈ ((os.filterMap id).map fun par => (par.degree, par.moduli)) ↔ Serves bits e) ∧
      ∀ par ∈ os.filterMap id, Largest par.degree bits par.plaintext.value ∧ par.variance = 10 := by
    intro tbl
    induction tbl with
    | nil => intro _ _; exact ⟨[], rfl, by simp, by simp, by simp⟩
    | cons e tbl ih =>
      intro hnd hmem
      obtain ⟨hn1, hn2⟩ := List.nodup_cons.1 hnd
      obtain ⟨os, k1, k2, k3, k4⟩ := ih hn2 fun x hx => hmem x (List.mem_cons_of_mem _ hx)
      obtain ⟨o, o1, o2, o3⟩ := entry_spec hb hl h1 h2 (hmem e (by simp))
      refine ⟨o :: os, by rw [List.mapM_cons, o1, k1]; rfl, ?_⟩
      have hsub : ∀ e' ∈ ((os.filterMap id).map fun par => (par.degree, par.moduli)), e' ∈ tbl := fun e' h => k2.subset h
      cases o with
      | none =>
        refine ⟨k2.trans (List.sublist_cons_self _ _), ?_, k4⟩
        intro e' he'
        rcases List.mem_cons.1 he' with rfl | he'
        · exact ⟨fun h => absurd (hsub _ h) hn1, fun h => absurd h (o3 rfl)⟩
        · exact k3 e' he'
      | some par =>
        obtain ⟨p1, p2, p3, p4⟩ := o2 par rfl
        have hpe : (par.degree, par.moduli) = e := Prod.ext p2 p3
        simp only [List.filterMap_cons, id, List.map_cons, hpe]
        refine ⟨k2.cons_cons e, ?_, ?_⟩
        · intro e' he'
          rcases List.mem_cons.1 he' with rfl | hm
          · exact ⟨fun _ => p1, fun _ => by simp⟩
          · rw [← k3 e' hm, List.mem_cons]
            exact ⟨fun h => h.resolve_left (by rintro rfl; exact hn1 hm), Or.inr⟩
        · intro q hq
          rcases List.mem_cons.1 hq with rfl | hq
          · exact p4
          · exact k4 q hq
  obtain ⟨os, k1, k2, k3, k4⟩ := key defaultTable (by decide) (fun _ h => h)
  refine ⟨os.filterMap id, ?_, k2, k3, k4⟩
  unfold defaultParameters128
  rw [check_eq h2, Res.lift_some, Res.ok_bind, k1, Res.lift_some, Res.ok_bind]
  rfl

/-- C31: the predefined parameters are what building with the same degree, plaintext modulus and moduli returns. -/
theorem C31_defaults_build (hb : b.OK) {bits : Nat} {l : List BfvParameters} (h : defaultParameters128 b bits = Res.ok l) :
    ∀ par ∈ l, build b (({} : ParamsBuilder).setDegree par.degree |>.setPlaintext par.plaintext.value |>.setModuli par.moduli) = Res.ok par := by
  intro par hpar
  unfold defaultParameters128 at h
  simp only [Res.bind_eq_ok, Res.lift_eq_ok] at h
  obtain ⟨⟨⟩, hck, r, hr, h⟩ := h
  split at h
  · exact absurd h Res.err_ne_ok
  rw [Res.pure_eq, Res.ok_inj] at h
  subst h
  have hr := mapM_some_inv hr
  obtain ⟨o, ho, rfl⟩ := List.mem_filterMap.1 hpar
  obtain ⟨i, hi, hio⟩ := List.mem_iff_getElem.1 ho
  have hi' : i < defaultTable.length := by rw [hr.length_eq]; exact hi
  have he := (List.forall₂_iff_get.1 hr).2 i hi' hi
  simp only [List.get_eq_getElem] at he
  have hmem : defaultTable[i] ∈ defaultTable := List.getElem_mem _
  generalize defaultTable[i] = e at he hmem
  have hne := (table_facts hmem).2.1
  rw [hio] at he
  unfold defaultEntry at he
  simp only [Option.bind_eq_bind, Option.bind_eq_some_iff] at he
  obtain ⟨sh, hsh, ⟨⟩, hck', t?, hgen, he⟩ := he
  cases t? with
  | none => simp at he
  | some t =>
    simp only at he
    split at he
    swap
    · simp at he
    have hp : build b (({} : ParamsBuilder).setDegree e.1 |>.setPlaintext t |>.setModuli e.2) = Res.ok par := by
      generalize build b (({} : ParamsBuilder).setDegree e.1 |>.setPlaintext t |>.setModuli e.2) = x at he
      unfold Res.okOrNone at he
      split at he
      · cases he
      · simp at he
      · rename_i a hx
        simp only [Option.some.injEq] at he
        subst he
        exact hx
    obtain ⟨-, s1, -, s3, s4⟩ := C31_sound hb hp
    rcases s4 with s4 | s4
    · rw [s1, s3, s4.2]; exact hp
    · exact absurd s4.1 hne

open Classical in
theorem eq_filter {α : Type} {p : α → Prop} : ∀ {l l' : List α}, l'.Nodup → l.Sublist l' → (∀ a ∈ l', a ∈ l ↔ p a) → l = l'.filter (fun a => decide (p a))
  | [], [], _, _, _ => rfl
  | _ :: _, [], _, h, _ => by cases h
  | l, a :: l', hn, h, hp => by
    obtain ⟨hn1, hn2⟩ := List.nodup_cons.1 hn
    by_cases hpa : p a
    · have ha := (hp a (by simp)).2 hpa
      rw [List.filter_cons_of_pos (by simpa using hpa)]
      cases h with
      | cons _ h => exact absurd (h.subset ha) hn1
      | cons_cons _ h =>
        congr 1
        refine eq_filter hn2 h fun x hx => ?_
        have := hp x (by simp [hx])
        rw [← this, List.mem_cons]
        exact ⟨Or.inr, fun h => h.resolve_left (by rintro rfl; exact hn1 hx)⟩
    · have ha : a ∉ l := fun h => hpa ((hp a (by simp)).1 h)
      rw [List.filter_cons_of_neg (by simpa using hpa)]
      cases h with
      | cons _ h => exact eq_filter hn2 h fun x hx => hp x (by simp [hx])
      | cons_cons _ h => exact absurd (by simp) ha

open Classical in
/-- C31: the degrees and moduli of the predefined parameters are the lines of the table that serve plaintext moduli of the requested size. -/
theorem C31_defaults_lines (hb : b.OK) (hl : b.Lucky) {bits : Nat} (h1 : 1 ≤ bits) (h2 : bits < 64) (hs : ∃ e ∈ defaultTable, Serves bits e) :
    ∃ l : List BfvParameters, defaultParameters128 b bits = Res.ok l ∧ (l.map fun par => (par.degree, par.moduli)) = defaultTable.filter (fun e => decide (Serves bits e)) := by
  obtain ⟨l, e1, e2, e3, -⟩ := C31_defaults_exact hb hl h1 h2
  obtain ⟨e, he, hse⟩ := hs
  have hne : l ≠ [] := by rintro rfl; exact absurd ((e3 e he).2 hse) (by simp)
  rw [if_neg hne] at e1
  exact ⟨l, e1, eq_filter (by decide) e2 e3⟩

/-- A line of the table serves a size if its largest prime of that size is given. -/
theorem serves_of {bits : Nat} {e : Nat × List Nat} {t : Nat} (h1 : 10 ≤ bits) (h2 : bits ≤ 62) (ht : Largest e.1 bits t) (h3 : t < e.2.prod) (h4 : t ∉ e.2) : Serves bits e := ⟨h1, h2, t, ht, h3, h4⟩

/-- The first line serves plaintext moduli of twenty bits; none serves nine. -/
example : Serves 20 (1024, [0x7e00001]) ∧ ∀ e, ¬ Serves 9 e := by
  refine ⟨⟨by decide, by decide, 1038337, ⟨⟨by norm_num, by decide, by decide, by decide⟩, fun t' ⟨h1, h2, h3, h4⟩ => ?_⟩, by decide, by decide⟩, fun e h => absurd h.1 (by decide)⟩
  by_contra hc
  replace h4 : t' % 2048 = 1 := h4
  obtain ⟨k, rfl⟩ : ∃ k, t' = 2048 * k + 1 := ⟨t' / 2048, by omega⟩
  have : 507 < k := by omega
  have : k < 512 := by omega
  interval_cases k <;> revert h1 <;> norm_num

/-- The hypotheses on the build are met. -/
example : luckyBuild.OK ∧ luckyBuild.Lucky := ⟨luckyBuild_ok, luckyBuild_lucky⟩

end Fhe.Props
