import Verif.Lemmas.Moves
import Verif.Props.BfvEval
/-!
# Property C96: rotations compose
-/
namespace Fhe.Props
open Nega Poly ParamsBuilder Ciphertext

variable {b : Build} {par : Par} {st : ParamsBuilder} {s : IntPoly par.degree} {sk : SecretKey} {i j e S B V : Nat} {ct : Ciphertext} {m : par.Msg} {v : IntPoly par.degree}
  {k : EvaluationKey}

/-- C96: any number of calls that the evaluation key supports succeed one after the other. The noise grows by at most `t B` a call. Where the
slots of the result come from depends on the calls only by how many columns they rotate in all and by how often they exchange the rows. -/
theorem C96_moves (hb : b.OK) (h : build b st = Res.ok par.toBfvParameters) (hk : k.IsFor par s i j e) (hS : s.Bounded S) (hB : k.ErrorAtMost par S e B)
    (h1 : ct.Encrypts par s i m v) (h2 : ct.c.length = 2) (hV : v.Bounded V) {l : List Move} (hl : ∀ x ∈ l, x.Supported k) :
    ∃ r m' v', Move.applyAll k l ct = Res.ok r ∧ r.Encrypts par s i m' v' ∧ r.c.length = 2 ∧ v'.Bounded (V + l.length * (par.plaintext.value * B)) ∧
      m' = Nega.subst (3 ^ Move.steps l * (2 * par.degree - 1) ^ Move.swaps l) m ∧
      (par.nttOperator ≠ none → ∀ (pt pt' : Plaintext) (lv lv' c c' : Nat), pt.Holds par c m → pt'.Holds par c' m' →
        (pt.encoding = none ∨ pt.encoding = some ⟨.simd, lv⟩) → (pt'.encoding = none ∨ pt'.encoding = some ⟨.simd, lv'⟩) →
        ∃ w : List Nat, w.length = par.degree ∧ pt.decodeU64 (some ⟨.simd, lv⟩) = Res.ok w ∧
          pt'.decodeU64 (some ⟨.simd, lv'⟩) = Res.ok ((List.range par.degree).map fun i => w.getD (Move.source par.degree (Move.steps l) (Move.swaps l) i) 0)) := by
  obtain ⟨n, hw, -⟩ := build_inv hb h
  obtain ⟨r, e1, v', e2, e3, e4⟩ := Move.applyAll_eq hw hk hS hB hl (ct := ct) ⟨v, h1, h2, hV⟩
  refine ⟨r, _, v', e1, e2, e3, e4, rfl, fun hop pt pt' lv lv' c c' hm hm' he he' => ?_⟩
  obtain ⟨ζ, hζ, -⟩ := Plaintext.slots_inj hw hop
  have hneg := hζ.neg_one hw hop
  have hsm := Plaintext.small_of_op hw hop
  have ht := hw.t_pos
  have : NeZero par.plaintext.value := ⟨by omega⟩
  have hn : 3 ≤ n := hw.three_le
  have hN := hw.degree
  have h64 : ∀ m : par.Msg, ∀ x ∈ msgCoeffs m, x < 2 ^ 64 := fun m x hx => by have := msgCoeffs_lt m x hx; omega
  have dec : ∀ {pt : Plaintext} {level lv : Nat} {m : par.Msg}, pt.Holds par level m → (pt.encoding = none ∨ pt.encoding = some ⟨.simd, lv⟩) →
      pt.decodeU64 (some ⟨.simd, lv⟩) = Res.ok (tab par.degree fun i => (slotValue ζ m i).val) := by
    intro pt level lv m hm he
    have he' : pt.resolveEncoding (some ⟨.simd, lv⟩) = Res.ok ⟨.simd, lv⟩ :=
      Plaintext.resolveEncoding_ok (by rcases he with he | he <;> [exact Or.inr ⟨he, rfl⟩; exact Or.inl ⟨he, Or.inr rfl⟩])
    rw [Plaintext.decodeU64_eq hw hζ hm he' (fun _ => hop) (h64 _)]
    rfl
  have hdvd : 2 ∣ par.degree := by rw [hN]; exact dvd_pow_self 2 (by omega)
  have h8 : 2 ^ 3 ≤ 2 ^ n := Nat.pow_le_pow_right (by norm_num) hn
  refine ⟨_, length_tab _ _, dec hm he, ?_⟩
  rw [dec hm' he', Res.ok_inj]
  refine List.map_congr_left fun i hi => ?_
  have hi' : i < par.degree := by simpa using hi
  rw [Move.slots_exponent hneg (by omega) hN l m i hi', NttOperator.tab_getD _ (Move.source_lt (by omega) hdvd _ _ _)]

/-- C96: two sequences of calls that rotate by as many columns, up to full turns, and that exchange the rows as often, up to an even number,
give ciphertexts that decrypt to the same message, as long as there is room for the noise of both. -/
theorem C96_order (hb : b.OK) (h : build b st = Res.ok par.toBfvParameters) (hr : par.toBfvParameters.Reliable i) (hsk : sk.IsKey par s) (hk : k.IsFor par s i j e) (hS : s.Bounded S)
    (hB : k.ErrorAtMost par S e B) (h1 : ct.Encrypts par s i m v) (h2 : ct.c.length = 2) (hV : v.Bounded V) {l l' : List Move} (hl : ∀ x ∈ l, x.Supported k) (hl' : ∀ x ∈ l', x.Supported k)
    (hroom : ∀ c, (c = l.length ∨ c = l'.length) → 2 ^ 62 * (V + c * (par.plaintext.value * B)) ≤ (2 ^ 61 - 1) * par.modulusAt i)
    (hsteps : Move.steps l % (par.degree / 2) = Move.steps l' % (par.degree / 2)) (hswaps : Move.swaps l % 2 = Move.swaps l' % 2) :
    ∃ r r' pt pt' m', Move.applyAll k l ct = Res.ok r ∧ Move.applyAll k l' ct = Res.ok r' ∧ sk.tryDecrypt b r = Res.ok pt ∧ sk.tryDecrypt b r' = Res.ok pt' ∧
      pt.Holds par i m' ∧ pt'.Holds par i m' := by
  obtain ⟨n, hw, -⟩ := build_inv hb h
  obtain ⟨r, e1, v1, e2, e3, e4⟩ := Move.applyAll_eq hw hk hS hB hl (ct := ct) ⟨v, h1, h2, hV⟩
  obtain ⟨r', e1', v1', e2', e3', e4'⟩ := Move.applyAll_eq hw hk hS hB hl' (ct := ct) ⟨v, h1, h2, hV⟩
  obtain ⟨pt, d1, d2, -⟩ := C37_decrypt hb h hr hsk e2 (small_of_bounded e4 (hroom _ (Or.inl rfl)))
  obtain ⟨pt', d1', d2', -⟩ := C37_decrypt hb h hr hsk e2' (small_of_bounded e4' (hroom _ (Or.inr rfl)))
  have hmsg := Move.exponent_mod hw.three_le hw.degree hsteps hswaps
  rw [← subst_mod, ← hmsg, subst_mod] at d2'
  exact ⟨r, r', pt, pt', _, e1, e1', d1, d1', d2, d2'⟩

/-- C96: calls that rotate by full turns in all and that exchange the rows an even number of times give the message back. -/
theorem C96_back (hb : b.OK) (h : build b st = Res.ok par.toBfvParameters) (hr : par.toBfvParameters.Reliable i) (hsk : sk.IsKey par s) (hk : k.IsFor par s i j e) (hS : s.Bounded S)
    (hB : k.ErrorAtMost par S e B) (h1 : ct.Encrypts par s i m v) (h2 : ct.c.length = 2) (hV : v.Bounded V) {l : List Move} (hl : ∀ x ∈ l, x.Supported k)
    (hroom : 2 ^ 62 * (V + l.length * (par.plaintext.value * B)) ≤ (2 ^ 61 - 1) * par.modulusAt i)
    (hsteps : par.degree / 2 ∣ Move.steps l) (hswaps : 2 ∣ Move.swaps l) :
    ∃ r pt, Move.applyAll k l ct = Res.ok r ∧ sk.tryDecrypt b r = Res.ok pt ∧ pt.Holds par i m := by
  obtain ⟨n, hw, -⟩ := build_inv hb h
  obtain ⟨r, e1, v1, e2, e3, e4⟩ := Move.applyAll_eq hw hk hS hB hl (ct := ct) ⟨v, h1, h2, hV⟩
  obtain ⟨pt, d1, d2, -⟩ := C37_decrypt hb h hr hsk e2 (small_of_bounded e4 hroom)
  have hmsg := Move.exponent_mod (l := l) (l' := []) hw.three_le hw.degree (by rw [Nat.mod_eq_zero_of_dvd hsteps]; exact (Nat.zero_mod _).symm) (by rw [Nat.mod_eq_zero_of_dvd hswaps]; rfl)
  rw [← subst_mod, hmsg, subst_mod, show Move.exponent par.degree [] = 1 from rfl, subst_one] at d2
  exact ⟨r, pt, e1, d1, d2⟩

/-- C96: an evaluation key that supports inner sums suffices to rotate by any number of columns, with or without exchanging the rows, and so to
bring any slot to any place: by at most `log₂ N` calls that it supports. -/
theorem C96_reach (hb : b.OK) (h : build b st = Res.ok par.toBfvParameters) (hk : k.IsFor par s i j e) (hsup : k.supportsInnerSum = some true) :
    (∀ steps swaps, ∃ l : List Move, (∀ x ∈ l, x.Supported k) ∧ l.length ≤ Nat.log2 par.degree ∧ Move.steps l % (par.degree / 2) = steps % (par.degree / 2) ∧ Move.swaps l % 2 = swaps % 2) ∧
    ∀ a < par.degree, ∀ c < par.degree, ∃ l : List Move, (∀ x ∈ l, x.Supported k) ∧ l.length ≤ Nat.log2 par.degree ∧
      Move.source par.degree (Move.steps l) (Move.swaps l) c = a := by
  obtain ⟨n, hw, -⟩ := build_inv hb h
  obtain ⟨q, hq, hq'⟩ := EvaluationKey.supportsInnerSum_eq hw hk
  rw [hsup, Option.some_inj] at hq
  obtain ⟨hrow, hcol⟩ := hq'.1 hq.symm
  have hn := hw.three_le
  have hN := hw.degree
  have hlog : Nat.log2 par.degree = n := EvaluationKey.log2_degree hw
  have hh : par.degree / 2 = 2 ^ (n - 1) := by
    rw [hN]; conv_lhs => rw [show n = (n - 1) + 1 by omega, pow_succ]
    simp
  have hpos : 0 < par.degree / 2 := by rw [hh]; positivity
  have hdvd : 2 ∣ par.degree := by rw [hN]; exact dvd_pow_self 2 (by omega)
  have main : ∀ steps swaps, ∃ l : List Move, (∀ x ∈ l, x.Supported k) ∧ l.length ≤ Nat.log2 par.degree ∧ Move.steps l % (par.degree / 2) = steps % (par.degree / 2) ∧ Move.swaps l % 2 = swaps % 2 := by
    intro steps swaps
    obtain ⟨l, l1, l2, l3⟩ := Move.binary (n - 1) (steps % (par.degree / 2)) (by rw [← hh]; exact Nat.mod_lt _ hpos)
    have hs : ∀ x ∈ l.map fun x => Move.columns (2 ^ x), x.Supported k := by
      intro x hx
      obtain ⟨a, ha, rfl⟩ := List.mem_map.1 hx
      have ha' : 2 ^ a < par.degree / 2 := by rw [hh]; exact Nat.pow_lt_pow_right (by norm_num) (l2 a ha)
      show k.supportsColumnRotationBy (2 ^ a) = true
      unfold EvaluationKey.supportsColumnRotationBy
      rw [(hk.rot (2 ^ a) _).2 ⟨Nat.one_le_two_pow, ha', rfl⟩]
      exact hcol a ha'
    have hr : Move.Supported k Move.rows := by
      show k.supportsRowRotation = true
      unfold EvaluationKey.supportsRowRotation
      rw [hk.par_eq, mul_comm]
      exact hrow
    rcases Nat.mod_two_eq_zero_or_one swaps with h0 | h0
    · exact ⟨_, hs, by rw [List.length_map, hlog]; omega, by rw [l3, Nat.mod_mod], by rw [Move.swaps_columns, h0]⟩
    · refine ⟨Move.rows :: l.map fun x => Move.columns (2 ^ x), fun x hx => ?_, by rw [List.length_cons, List.length_map, hlog]; omega, ?_, ?_⟩
      · rcases List.mem_cons.1 hx with rfl | hx
        · exact hr
        · exact hs x hx
      · show Move.steps (l.map fun x => Move.columns (2 ^ x)) % _ = _
        rw [l3, Nat.mod_mod]
      · show (Move.swaps (l.map fun x => Move.columns (2 ^ x)) + 1) % 2 = _
        rw [Move.swaps_columns, h0]
  refine ⟨main, fun a ha c hc => ?_⟩
  generalize hH : par.degree / 2 = H at *
  have ha2 : a / H < 2 := Nat.div_lt_of_lt_mul (by omega)
  have hc2 : c / H < 2 := Nat.div_lt_of_lt_mul (by omega)
  have hcm : c % H < H := Nat.mod_lt _ hpos
  have ham : a % H < H := Nat.mod_lt _ hpos
  obtain ⟨l, l1, l2, l3, l4⟩ := main (a % H + (H - c % H)) (a / H + c / H)
  refine ⟨l, l1, l2, ?_⟩
  rw [Move.source_mod (a' := a % H + (H - c % H)) (c' := a / H + c / H) (by rw [hH]; exact l3) l4]
  unfold Move.source
  rw [hH, show c % H + (a % H + (H - c % H)) = a % H + H by omega, Nat.add_mod_right, Nat.mod_mod, show (c / H + (a / H + c / H)) % 2 = a / H by
    generalize a / H = x at *; generalize c / H = y at *; clear main l4; omega]
  exact Nat.div_add_mod' a H

/-- At the parameters of `exCipher`, with a key for inner sums: rotating by one column, exchanging the rows, rotating by two columns, by one,
and exchanging the rows again gives the message back; rotating by two columns and exchanging the rows is the same as doing so with rotations
by six columns in all; and the key suffices to bring the last slot to the second place. -/
example : ∃ (par : Par) (sk : SecretKey) (m : par.Msg) (ct : Ciphertext) (k : EvaluationKey), msgCoeffs m = [1, 2, 16, 0, 0, 0, 0, 0] ∧ par.nttOperator ≠ none ∧
    (∃ r pt, Move.applyAll k [.columns 1, .rows, .columns 2, .columns 1, .rows] ct = Res.ok r ∧ sk.tryDecrypt luckyBuild r = Res.ok pt ∧ pt.Holds par 0 m) ∧
    (∃ r r' pt pt' m', Move.applyAll k [.columns 2, .rows] ct = Res.ok r ∧ Move.applyAll k [.columns 1, .columns 2, .rows, .columns 2, .columns 1] ct = Res.ok r' ∧ sk.tryDecrypt luckyBuild r = Res.ok pt ∧
      sk.tryDecrypt luckyBuild r' = Res.ok pt' ∧ pt.Holds par 0 m' ∧ pt'.Holds par 0 m') ∧
    ∃ l : List Move, (∀ x ∈ l, x.Supported k) ∧ l.length ≤ 3 ∧ Move.source 8 (Move.steps l) (Move.swaps l) 1 = 7 := by
  obtain ⟨par, sk, s, pt, pt', m, m', ct, ct', v, v', h, hd, ht, hm, hrel, hk, hs, e2, e2', em, em', f1, f1', f2, f2', f3, f3', f4, f4', f5, f6, h0, hvar⟩ := exCipher
  have hb := luckyBuild_ok
  obtain ⟨bd, bd', k, g1, g2, g3, g4, g5, g6, g7, g8, g9, g10, g11⟩ := C50_build (i := 0) (j := 0) hb h (by rw [hm]; decide) hk exPrg_ok (by rw [hm]; decide) (le_refl _)
    [.columns 1, .columns 2, .innerSum] (fun _ => List.replicate 32 3) (rngs := fun _ _ => exRng) (fun _ _ => exRng_ok)
  have hB := g6 (by rw [hm]; decide) 2
  have c1 : Move.Supported k (.columns 1) := g9 1 (by simp) (by omega) (by rw [hd]; decide)
  have c2 : Move.Supported k (.columns 2) := g9 2 (by simp) (by omega) (by rw [hd]; decide)
  have c0 : Move.Supported k .rows := g7.2 (by simp)
  refine ⟨par, sk, m, ct, k, em, (C34_available hb h).2 luckyBuild_lucky (by rw [ht]; norm_num) (by rw [ht]; norm_num) (by rw [ht, hd]), ?_, ?_, ?_⟩
  · refine C96_back hb h hrel hk g4 hs hB f2 f4 f3 (fun x hx => ?_) (by rw [h0, ht, hd, hm, hvar]; decide) (by rw [hd]; decide) (by decide)
    simp only [List.mem_cons, List.not_mem_nil, or_false] at hx
    rcases hx with rfl | rfl | rfl | rfl | rfl <;> assumption
  · refine C96_order hb h hrel hk g4 hs hB f2 f4 f3 (fun x hx => ?_) (fun x hx => ?_) (fun c hc => ?_) (by rw [hd]; decide) (by decide)
    · simp only [List.mem_cons, List.not_mem_nil, or_false] at hx
      rcases hx with rfl | rfl <;> assumption
    · simp only [List.mem_cons, List.not_mem_nil, or_false] at hx
      rcases hx with rfl | rfl | rfl | rfl | rfl <;> assumption
    · rcases hc with rfl | rfl <;> (rw [h0, ht, hd, hm, hvar]; decide)
  · obtain ⟨l, l1, l2, l3⟩ := (C96_reach hb h g4 (g10 (by simp))).2 7 (by rw [hd]; decide) 1 (by rw [hd]; decide)
    rw [hd] at l2 l3
    exact ⟨l, l1, l2, l3⟩

end Fhe.Props
