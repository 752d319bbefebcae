import Verif.Spec.BfvEval
import Verif.Lemmas.BfvRelin
/-!
# Lemmas on evaluation keys
-/
namespace Fhe
open Nega Poly Ciphertext

variable {b : Build} {n N : Nat} {c c' : Context} {r : Rep} {vt vt' : Bool} {par : Par} {i j : Nat} {l l' : ContextLevel}

/-! ## Maps, sets and loops -/

theorem lookup_tab {α : Type} (f : Nat → α) (t : Nat) : ∀ k : Nat, ((List.range k).map fun i => (i + 1, f (i + 1))).lookup t = if 1 ≤ t ∧ t ≤ k then some (f t) else none
  | 0 => by rw [if_neg (by omega)]; rfl
  | k + 1 => by
    rw [List.range_succ, List.map_append, List.lookup_append, lookup_tab f t k]
    by_cases h : 1 ≤ t ∧ t ≤ k
    · rw [if_pos h, if_pos (by omega)]; rfl
    · rw [if_neg h]
      by_cases h' : t = k + 1
      · subst h'
        rw [if_pos (by omega)]
        simp
      · rw [if_neg (by omega)]
        simpa using h'

theorem mem_setInsert {s : List Nat} {k x : Nat} : x ∈ setInsert s k ↔ x ∈ s ∨ x = k := by
  unfold setInsert
  by_cases h : k ∈ s
  · rw [if_pos h]
    exact ⟨Or.inl, fun h' => by rcases h' with h' | rfl <;> assumption⟩
  · rw [if_neg h]; simp

theorem nodup_setInsert {s : List Nat} {k : Nat} (h : s.Nodup) : (setInsert s k).Nodup := by
  unfold setInsert
  split
  · exact h
  · next hk => rw [List.nodup_append]; exact ⟨h, List.nodup_singleton _, fun a ha b hb => by rintro rfl; rw [List.mem_singleton] at hb; exact hk (hb ▸ ha)⟩

theorem nodup_foldl_setInsert : ∀ {ks s : List Nat}, s.Nodup → (ks.foldl setInsert s).Nodup
  | [], _, h => h
  | k :: ks, s, h => by rw [List.foldl_cons]; exact nodup_foldl_setInsert (nodup_setInsert h)

theorem mem_foldl_setInsert {x : Nat} : ∀ {ks s : List Nat}, x ∈ ks.foldl setInsert s ↔ x ∈ s ∨ x ∈ ks
  | [], s => by simp
  | k :: ks, s => by rw [List.foldl_cons, mem_foldl_setInsert, mem_setInsert, List.mem_cons, or_assoc]

theorem doublings_eq {m : Nat} : ∀ {fuel k : Nat}, k ≤ m → m - k ≤ fuel → doublings (2 ^ m) fuel (2 ^ k) = (List.range (m - k)).map fun t => 2 ^ (k + t)
  | 0, k, h1, h2 => by rw [show m - k = 0 by omega]; rfl
  | fuel + 1, k, h1, h2 => by
    unfold doublings
    by_cases h : k = m
    · subst h
      rw [if_neg (lt_irrefl _), Nat.sub_self]; rfl
    · rw [if_pos (Nat.pow_lt_pow_right (by norm_num) (by omega)), ← pow_succ, doublings_eq (by omega) (by omega), show m - k = (m - (k + 1)) + 1 by omega, List.range_succ_eq_map, List.map_cons,
        List.map_map]
      congr 1
      refine List.map_congr_left fun t _ => ?_
      show 2 ^ (k + 1 + t) = 2 ^ (k + (t + 1))
      congr 1; omega

theorem doublings_half (hN : N = 2 ^ (n + 1)) : doublings (N / 2) (N / 2) 1 = (List.range n).map fun t => 2 ^ t := by
  have hh : N / 2 = 2 ^ n := by rw [hN, pow_succ, Nat.mul_div_cancel _ (by norm_num)]
  have := doublings_eq (m := n) (fuel := 2 ^ n) (k := 0) (by omega) (by have := Nat.lt_two_pow_self (n := n); omega)
  rw [hh, ← pow_zero 2, this]
  simp

theorem mapM_pairs {α : Type} {f : Nat → Res α} : ∀ {set : List Nat}, (∀ x ∈ set, ∃ a, f x = Res.ok a) →
    ∃ gk, (set.mapM fun x => do return (x, ← f x)) = Res.ok gk ∧ (∀ x a, gk.lookup x = some a → f x = Res.ok a) ∧ (∀ x, (gk.lookup x).isSome = true ↔ x ∈ set) ∧ gk.map Prod.fst = set
  | [], _ => ⟨[], by simp [Res.pure_eq], by simp, by simp, rfl⟩
  | y :: ys, h => by
    obtain ⟨a, ha⟩ := h y (by simp)
    obtain ⟨gk, h1, h2, h3, h4⟩ := mapM_pairs (set := ys) fun x hx => h x (List.mem_cons_of_mem _ hx)
    refine ⟨(y, a) :: gk, ?_, fun x a' hx => ?_, fun x => ?_, by rw [List.map_cons, h4]⟩
    · rw [List.mapM_cons, ha, Res.ok_bind, Res.pure_eq, Res.ok_bind, h1, Res.ok_bind, Res.pure_eq]
    · rw [List.lookup_cons] at hx
      by_cases hxy : x = y
      · subst hxy
        simp at hx
        rw [← hx]; exact ha
      · rw [beq_eq_false_iff_ne.2 hxy] at hx
        exact h2 x a' hx
    · rw [List.lookup_cons]
      by_cases hxy : x = y
      · subst hxy; simp
      · rw [beq_eq_false_iff_ne.2 hxy, h3 x, List.mem_cons]
        exact ⟨Or.inr, fun h => by rcases h with h | h <;> [exact absurd h hxy; exact h]⟩

namespace EvaluationKey
variable {s : IntPoly par.degree} {k : EvaluationKey} {e : Nat} {ct : Ciphertext} {m : par.Msg} {v : IntPoly par.degree} {sk : SecretKey}

theorem constructRot_eq (hw : ParWF b n par.toBfvParameters) :
    constructRot b par = some ((List.range (par.degree / 2 - 1)).map fun i => (i + 1, 3 ^ (i + 1) % (2 * par.degree))) := by
  have hn := hw.three_le
  have hn2 := hw.le_16
  have hN := hw.degree
  have h8 : 2 ^ 3 ≤ 2 ^ n := Nat.pow_le_pow_right (by norm_num) hn
  have h16 : 2 ^ n ≤ 2 ^ 16 := Nat.pow_le_pow_right (by norm_num) hn2
  obtain ⟨q, hq, hp, -, hwf⟩ := Modulus.new_eq_ok (cfg := b.cfg) (p := 2 * par.degree) (by omega)
  unfold constructRot
  rw [hq]
  simp only [Option.bind_eq_bind, Option.bind_some]
  refine mapM_eq_some_map fun i hi => ?_
  have hi' : i < par.degree / 2 - 1 := by simpa using hi
  rw [Modulus.pow_eq hwf (by omega) (by omega), hp]
  rfl

end EvaluationKey

/-! ## Monomials and expansion -/

theorem Nega.mul_mono_apply {R : Type*} [CommRing R] (f : Nega N R) {k : Nat} (hk : k < N) (p : Fin N) :
    (f * mono k : Nega N R) p = if h : k ≤ p.val then f ⟨p.val - k, by omega⟩ else - f ⟨p.val + N - k, by omega⟩ := by
  have hp := p.isLt
  rw [Nega.mul_apply]
  have hm : ∀ j : Fin N, (mono k : Nega N R) j = if j.val = k then 1 else 0 := fun j => by
    rw [mono, Nat.mod_eq_of_lt hk, Nat.div_eq_of_lt hk]; simp
  by_cases h : k ≤ p.val
  · rw [dif_pos h, Finset.sum_eq_single ⟨p.val - k, by omega⟩, Finset.sum_eq_single ⟨k, hk⟩]
    · rw [if_pos (by simp only []; omega), hm, if_pos rfl, mul_one]
    · intro j _ hj
      rw [hm, if_neg fun e => hj (Fin.ext e)]; simp
    · intro h; exact absurd (Finset.mem_univ _) h
    · intro i _ hi
      refine Finset.sum_eq_zero fun j _ => ?_
      rw [hm]
      by_cases hj : j.val = k
      · have h1 := i.isLt
        have h2 : i.val ≠ p.val - k := fun e => hi (Fin.ext e)
        rw [if_neg (by omega), if_neg (by omega)]
      · rw [if_neg hj]; simp
    · intro h; exact absurd (Finset.mem_univ _) h
  · rw [dif_neg h, Finset.sum_eq_single ⟨p.val + N - k, by omega⟩, Finset.sum_eq_single ⟨k, hk⟩]
    · rw [if_neg (by simp only []; omega), if_pos (by simp only []; omega), hm, if_pos rfl, mul_one]
    · intro j _ hj
      rw [hm, if_neg fun e => hj (Fin.ext e)]; simp
    · intro h; exact absurd (Finset.mem_univ _) h
    · intro i _ hi
      refine Finset.sum_eq_zero fun j _ => ?_
      rw [hm]
      by_cases hj : j.val = k
      · have h1 := i.isLt
        have h2 : i.val ≠ p.val + N - k := fun e => hi (Fin.ext e)
        rw [if_neg (by omega), if_neg (by omega)]
      · rw [if_neg hj]; simp
    · intro h; exact absurd (Finset.mem_univ _) h

theorem Nega.subst_supported {R : Type*} [CommRing R] {l : Nat} (hl : 2 ^ (l + 1) ∣ N) (f : Nega N R) (hf : ∀ p, ¬ 2 ^ l ∣ p.val → f p = 0) (p : Fin N) :
    (Nega.subst (N / 2 ^ l + 1) f : Nega N R) p = if p.val / 2 ^ l % 2 = 0 then f p else - f p := by
  have hpos : 0 < 2 ^ l := by positivity
  have hN : N / 2 ^ l * 2 ^ l = N := Nat.div_mul_cancel ((pow_dvd_pow 2 (by omega)).trans hl)
  have hodd : (N / 2 ^ l + 1) % 2 = 1 := by
    obtain ⟨c, rfl⟩ := hl
    rw [pow_succ, mul_assoc, Nat.mul_div_cancel_left _ hpos]; omega
  have key : ∀ g : Nega N R, Nega.subst (N / 2 ^ l + 1) g = substHom _ hodd g := fun g => rfl
  let g : Nega N R := fun p => if p.val / 2 ^ l % 2 = 0 then f p else - f p
  have hg : ∀ p, g p = if p.val / 2 ^ l % 2 = 0 then f p else - f p := fun p => rfl
  rw [← hg]
  refine congrFun (?_ : Nega.subst (N / 2 ^ l + 1) f = g) p
  conv_lhs => rw [key, eq_sum_mono f, map_sum]
  conv_rhs => rw [eq_sum_mono g]
  refine Finset.sum_congr rfl fun p _ => ?_
  rw [hg, map_mul, ← key, ← key, subst_C, subst_mono hodd]
  by_cases hp : 2 ^ l ∣ p.val
  · obtain ⟨q, hq⟩ := hp
    have e : (N / 2 ^ l + 1) * p.val = N * q + p.val := by
      rw [add_mul, one_mul, hq, ← mul_assoc, hN]
    rw [e, mono_add, ← mono_pow, mono_N, hq, Nat.mul_div_cancel_left _ hpos]
    rcases Nat.mod_two_eq_zero_or_one q with h | h
    · rw [if_pos h, Even.neg_one_pow (Nat.even_iff.2 h), one_mul]
    · rw [if_neg (by omega), Odd.neg_one_pow (Nat.odd_iff.2 h), map_neg]; ring
  · rw [hf p hp]; simp

theorem expandMsg_zero {t : Nat} (m : Nega N (ZMod t)) : expandMsg 0 0 m = m := Nega.ext fun p => by
  unfold expandMsg
  rw [dif_pos ⟨by simp, by simp⟩]; simp

theorem expandMsg_low {t l j : Nat} (hl : 2 ^ (l + 1) ∣ N) (m : Nega N (ZMod t)) : expandMsg l j m + Nega.subst (N / 2 ^ l + 1) (expandMsg l j m) = expandMsg (l + 1) j m := by
  have hpos : 0 < 2 ^ l := by positivity
  apply Nega.ext; intro p
  rw [Nega.add_apply, subst_supported hl _ fun p hp => by unfold expandMsg; rw [dif_neg (fun h => hp h.1)]]
  unfold expandMsg
  by_cases h : 2 ^ l ∣ p.val ∧ j + p.val < N
  · rw [dif_pos h]
    obtain ⟨⟨q, hq⟩, h2⟩ := h
    have hq2 : p.val / 2 ^ l = q := by rw [hq, Nat.mul_div_cancel_left _ hpos]
    rw [hq2]
    rcases Nat.mod_two_eq_zero_or_one q with h | h
    · rw [if_pos h, dif_pos ⟨by rw [pow_succ, hq]; exact Nat.mul_dvd_mul_left _ (Nat.dvd_of_mod_eq_zero h), h2⟩]
      rw [pow_succ]; ring
    · rw [if_neg (by omega), dif_neg, add_neg_cancel]
      rintro ⟨h3, -⟩
      rw [pow_succ, hq] at h3
      have := Nat.dvd_of_mul_dvd_mul_left hpos h3
      omega
  · rw [dif_neg h, dif_neg fun h' => h ⟨(pow_dvd_pow 2 (by omega)).trans h'.1, h'.2⟩]; simp

theorem expandMsg_high {t l j : Nat} (hl : 2 ^ (l + 1) ∣ N) (hN : 0 < N) (m : Nega N (ZMod t)) :
    (expandMsg l j m - Nega.subst (N / 2 ^ l + 1) (expandMsg l j m)) * -mono (N - 2 ^ l) = expandMsg (l + 1) (2 ^ l + j) m := by
  have hpos : 0 < 2 ^ l := by positivity
  have hle : 2 ^ (l + 1) ≤ N := Nat.le_of_dvd hN hl
  rw [pow_succ] at hle
  have hd : ∀ p, (expandMsg l j m - Nega.subst (N / 2 ^ l + 1) (expandMsg l j m) : Nega N (ZMod t)) p =
      if h : p.val / 2 ^ l % 2 = 1 ∧ 2 ^ l ∣ p.val ∧ j + p.val < N then 2 ^ (l + 1) * m ⟨j + p.val, h.2.2⟩ else 0 := by
    intro p
    rw [Nega.sub_apply, subst_supported hl _ fun p hp => by unfold expandMsg; rw [dif_neg (fun h => hp h.1)]]
    unfold expandMsg
    by_cases h : 2 ^ l ∣ p.val ∧ j + p.val < N
    · rw [dif_pos h]
      rcases Nat.mod_two_eq_zero_or_one (p.val / 2 ^ l) with h' | h'
      · rw [if_pos h', dif_neg (by omega), sub_self]
      · rw [if_neg (by omega), dif_pos ⟨h', h⟩, pow_succ]; ring
    · rw [dif_neg h, dif_neg fun h' => h h'.2]; simp
  rw [mul_neg]
  apply Nega.ext; intro p
  have hp := p.isLt
  rw [Nega.neg_apply, mul_mono_apply _ (by omega)]
  simp only [hd]
  unfold expandMsg
  by_cases h1 : N - 2 ^ l ≤ p.val
  · rw [dif_pos h1, dif_neg, neg_zero, dif_neg]
    · rintro ⟨-, h⟩; omega
    · rintro ⟨h, -⟩
      rw [Nat.div_eq_of_lt (by omega)] at h
      omega
  · have e : p.val + N - (N - 2 ^ l) = p.val + 2 ^ l := by omega
    rw [dif_neg h1, neg_neg]
    have e2 : (p.val + 2 ^ l) / 2 ^ l = p.val / 2 ^ l + 1 := Nat.add_div_right _ hpos
    by_cases h2 : 2 ^ (l + 1) ∣ p.val ∧ 2 ^ l + j + p.val < N
    · have h3 : p.val / 2 ^ l % 2 = 0 := by
        obtain ⟨⟨q, hq⟩, -⟩ := h2
        rw [hq, pow_succ, mul_assoc, Nat.mul_div_cancel_left _ hpos]; omega
      rw [dif_pos h2, dif_pos ⟨by simp only [e, e2]; omega, by simp only [e]; exact (((pow_dvd_pow 2 (by omega)).trans h2.1).add (dvd_refl _)), by simp only [e]; omega⟩]
      congr 2
      apply Fin.ext; simp only [e]; omega
    · rw [dif_neg h2, dif_neg]
      rintro ⟨h3, h4, h5⟩
      simp only [e, e2] at h3 h4 h5
      refine h2 ⟨?_, by omega⟩
      have h6 : 2 ^ l ∣ p.val := (Nat.dvd_add_left (dvd_refl _)).1 h4
      obtain ⟨q, hq⟩ := h6
      rw [hq, Nat.mul_div_cancel_left _ hpos] at h3
      rw [hq, pow_succ]
      exact Nat.mul_dvd_mul_left _ (by omega)

namespace Ciphertext
variable {s : IntPoly par.degree} {ct : Ciphertext} {m : par.Msg}

/-- A ciphertext of two parts that encrypts a message with noise of at most `V`. -/
def Fits (par : Par) (s : IntPoly par.degree) (i : Nat) (ct : Ciphertext) (m : par.Msg) (V : Nat) : Prop := ∃ v, ct.Encrypts par s i m v ∧ ct.c.length = 2 ∧ v.Bounded V

theorem Encrypts.valid (hw : ParWF b n par.toBfvParameters) {v : IntPoly par.degree} (h : ct.Encrypts par s i m v) : ∀ p ∈ ct.c, p.Valid := by
  obtain ⟨l, F, M, ha, hF, -, -⟩ := h.elim hw
  exact hF.valid ha.wf

theorem bounded_mul_neg_mono {F : IntPoly N} {A k : Nat} (hF : F.Bounded A) (hk : k < N) : IntPoly.Bounded (F * -mono k) A := fun p => by
  rw [mul_neg, Nega.neg_apply, mul_mono_apply _ hk]
  split
  · rw [abs_neg]; exact hF _
  · rw [neg_neg]; exact hF _

theorem mulMonomial_eq (hw : ParWF b n par.toBfvParameters) (ha : AtLevel b n par i l) {V k : Nat} (h : ct.Fits par s i m V) (hk : k < par.degree) :
    ∃ r, EvaluationKey.mulMonomial ct (encI l.ctx .nttShoup vt (-mono k : IntPoly par.degree)) = some r ∧ r.Fits par s i (m * -mono k) V := by
  obtain ⟨v, h, h2, hv⟩ := h
  obtain ⟨l', F, M, ha', hF, hM, hph⟩ := h.elim hw
  obtain rfl := ha.unique ha'
  have hct : ∃ v0 v1 F0 F1, ct.c = [encI l.ctx .ntt v0 F0, encI l.ctx .ntt v1 F1] ∧ F = [F0, F1] := by
    generalize ct.c = cs at hF h2
    match cs, F, hF with
    | [_, _], [F0, F1], .cons ⟨v0, h0⟩ (.cons ⟨v1, h1⟩ .nil) => exact ⟨v0, v1, F0, F1, by rw [h0, h1], rfl⟩
    | [], _, _ => simp at h2
    | [_], _, _ => simp at h2
    | _ :: _ :: _ :: _, _, _ => simp at h2
  obtain ⟨v0, v1, F0, F1, hcc, rfl⟩ := hct
  unfold EvaluationKey.mulMonomial
  rw [hcc]
  simp only [Option.bind_eq_bind]
  rw [mulAssignShoup_encI ha.wf ha.deg, Option.bind_some, mulAssignShoup_encI ha.wf ha.deg, Option.bind_some]
  refine ⟨_, rfl, v * -mono k, ?_, rfl, bounded_mul_neg_mono hv hk⟩
  refine Encrypts.intro ha h.par_eq h.level_eq (by simp) (F := [F0 * -mono k, F1 * -mono k]) (M := M * -mono k) (.cons ⟨_, rfl⟩ (.cons ⟨_, rfl⟩ .nil)) ?_ ?_
  · rw [red_mul, hM, red_neg]
    congr 2
    exact map_mono _ _
  · have := phase_mul s (-mono k) [F0, F1]
    simp only [List.map_cons, List.map_nil] at this
    rw [this, ← mul_assoc, hph]; ring

theorem Fits.add (hw : ParWF b n par.toBfvParameters) {ct' : Ciphertext} {m' : par.Msg} {V V' : Nat} (h : ct.Fits par s i m V) (h' : ct'.Fits par s i m' V') :
    ∃ r, ct.add ct' = some r ∧ r.Fits par s i (m + m') (V + V') := by
  obtain ⟨v, h1, h2, h3⟩ := h
  obtain ⟨v', h1', h2', h3'⟩ := h'
  obtain ⟨r, e1, e2, e3, -⟩ := add_eq hw h1 h1' (by rw [h2, h2'])
  exact ⟨r, e1, _, e2, by rw [e3, h2], h3.add h3'⟩

theorem Fits.sub (hw : ParWF b n par.toBfvParameters) {ct' : Ciphertext} {m' : par.Msg} {V V' : Nat} (h : ct.Fits par s i m V) (h' : ct'.Fits par s i m' V') :
    ∃ r, ct.sub ct' = some r ∧ r.Fits par s i (m - m') (V + V') := by
  obtain ⟨v, h1, h2, h3⟩ := h
  obtain ⟨v', h1', h2', h3'⟩ := h'
  obtain ⟨r, e1, e2, e3, -⟩ := sub_eq hw h1 h1' (by rw [h2, h2'])
  exact ⟨r, e1, _, e2, by rw [e3, h2], h3.sub h3'⟩

theorem Fits.valid (hw : ParWF b n par.toBfvParameters) {V : Nat} (h : ct.Fits par s i m V) : ∀ p ∈ ct.c, p.Valid := by
  obtain ⟨v, h, -⟩ := h
  exact h.valid hw

theorem Fits.relin (hw : ParWF b n par.toBfvParameters) {x e S B V : Nat} {g : GaloisKey} (hk : g.IsFor par s x i j e) (hS : s.Bounded S) (hB : g.ksk.errorBound par S e ≤ B)
    (h : ct.Fits par s i m V) : ∃ r, (∀ out : Ciphertext, (∀ p ∈ out.c, p.Valid) → g.relinearizeInto ct out = Res.ok r) ∧ r.Fits par s i (Nega.subst x m) (V + par.plaintext.value * B) := by
  obtain ⟨v, h, h2, h3⟩ := h
  obtain ⟨r, W, -, e2, e3, e4, -, e5⟩ := GaloisKey.relinearize_eq hw hk h h2
  refine ⟨r, e2, _, e3, e4, (h3.subst hk.odd ⟨n, hw.degree⟩).add ?_⟩
  exact (((e5 S hS).C_mul _).mono (by rw [Int.natAbs_natCast]; exact Nat.mul_le_mul_left _ hB))

end Ciphertext
end Fhe
