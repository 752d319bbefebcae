import Verif.Spec.BfvKeys
import Verif.Lemmas.BfvMul
/-!
# Lemmas on key switching
-/
namespace Fhe
open Nega Poly Ciphertext

variable {b : Build} {n N : Nat} {c c' : Context} {r : Rep} {vt vt' : Bool}

namespace IntPoly
theorem dot_nil (E : List (IntPoly N)) : dot [] E = 0 := rfl
theorem dot_cons (d e : IntPoly N) (D E : List (IntPoly N)) : dot (d :: D) (e :: E) = d * e + dot D E := by simp [dot]

/-- Combining the rows of a key. -/
theorem dot_rows {s F : IntPoly N} : ∀ {D A B E : List (IntPoly N)} {G : List Int}, A.length = G.length → B.length = G.length → E.length = G.length → D.length = G.length →
    (∀ (i : Nat) (a b e : IntPoly N) (g : Int), A[i]? = some a → B[i]? = some b → G[i]? = some g → E[i]? = some e → a + b * s = e + C g * F) →
    dot D A + dot D B * s = dot D E + dot D (G.map C) * F
  | [], A, B, E, G, _, _, _, _, _ => by simp [dot]
  | d :: D, [], B, E, G, h1, h2, h3, h4, h => by rw [← h1] at h4; simp at h4
  | d :: D, a :: A, [], E, G, h1, h2, h3, h4, h => by rw [← h2] at h4; simp at h4
  | d :: D, a :: A, b :: B, [], G, h1, h2, h3, h4, h => by rw [← h3] at h4; simp at h4
  | d :: D, a :: A, b :: B, e :: E, [], h1, h2, h3, h4, h => by simp at h4
  | d :: D, a :: A, b :: B, e :: E, g :: G, h1, h2, h3, h4, h => by
    have h0 := h 0 a b e g rfl rfl rfl rfl
    have ih := dot_rows (s := s) (F := F) (D := D) (A := A) (B := B) (E := E) (G := G) (by simpa using h1) (by simpa using h2) (by simpa using h3) (by simpa using h4)
      fun i a b e g ha hb hg he => h (i + 1) a b e g (by simpa using ha) (by simpa using hb) (by simpa using hg) (by simpa using he)
    rw [List.map_cons, dot_cons, dot_cons, dot_cons, dot_cons]
    linear_combination d * h0 + ih

theorem dot_zero_mod {q : Int} : ∀ (D : List (IntPoly N)) (G : List Int), (∀ g ∈ G, q ∣ g) → ∀ j, q ∣ dot D (G.map C) j
  | [], _, _, j => by rw [dot_nil, Nega.zero_apply]; exact dvd_zero _
  | _ :: _, [], _, j => by simp only [dot, List.map_nil, List.zipWith_nil_right, List.sum_nil, Nega.zero_apply]; exact dvd_zero _
  | d :: D, g :: G, h, j => by
    rw [List.map_cons, dot_cons, Nega.add_apply, mul_comm, C_mul_apply]
    exact dvd_add (Dvd.dvd.mul_right (h g (by simp)) _) (dot_zero_mod D G (fun g hg => h g (by simp [hg])) j)

/-- The Chinese remainders, modulo one of the primes. -/
theorem dot_mod {q : Int} : ∀ {D : List (IntPoly N)} {G : List Int} {k : Nat}, D.length = G.length → (∀ (i : Nat) (g : Int), G[i]? = some g → q ∣ g - if i = k then 1 else 0) →
    ∀ d, D[k]? = some d → ∀ j, q ∣ dot D (G.map C) j - d j
  | [], _, k, _, _, d, hd, j => by simp at hd
  | _ :: _, [], k, hl, _, d, hd, j => by simp at hl
  | d :: D, g :: G, 0, hl, h, d', hd, j => by
    obtain rfl : d = d' := by simpa using hd
    rw [List.map_cons, dot_cons, Nega.add_apply, mul_comm, C_mul_apply]
    have h0 := h 0 g rfl
    have h1 := dot_zero_mod (q := q) D G (fun x hx => by
      obtain ⟨i, hi, rfl⟩ := List.getElem_of_mem hx
      have := h (i + 1) G[i] (by simp)
      simpa using this) j
    rw [if_pos rfl] at h0
    have : g * d j + dot D (G.map C) j - d j = (g - 1) * d j + dot D (G.map C) j := by ring
    rw [this]
    exact dvd_add (Dvd.dvd.mul_right h0 _) h1
  | d :: D, g :: G, k + 1, hl, h, d', hd, j => by
    rw [List.map_cons, dot_cons, Nega.add_apply, mul_comm, C_mul_apply]
    have h0 := h 0 g rfl
    rw [if_neg (by omega), sub_zero] at h0
    have ih := dot_mod (q := q) (D := D) (G := G) (k := k) (by simpa using hl) (fun i g hg => by simpa using h (i + 1) g (by simpa using hg)) d' (by simpa using hd) j
    rw [add_sub_assoc]
    exact dvd_add (Dvd.dvd.mul_right h0 _) ih

theorem dot_bounded {e : Nat} {f : Nat → Nat} : ∀ {D E : List (IntPoly N)}, (∀ (i : Nat) (d : IntPoly N), D[i]? = some d → d.Bounded (f i)) → (∀ x ∈ E, x.Bounded e) →
    (dot D E).Bounded (N * (∑ i ∈ Finset.range D.length, f i) * e)
  | [], E, _, _ => by rw [dot_nil]; exact IntPoly.Bounded.zero
  | _ :: _, [], _, _ => by simp only [dot, List.zipWith_nil_right, List.sum_nil]; exact IntPoly.Bounded.zero
  | d :: D, x :: E, hD, hE => by
    rw [dot_cons, List.length_cons, Finset.sum_range_succ']
    refine (((hD 0 d rfl).mul (hE x (by simp))).add (dot_bounded (f := fun i => f (i + 1)) (fun i d hd => hD (i + 1) d (by simpa using hd)) fun y hy => hE y (by simp [hy]))).mono ?_
    apply le_of_eq; ring
end IntPoly

/-- A row of words as an integer polynomial. -/
def rowPoly (N : Nat) (d : List Nat) : IntPoly N := IntPoly.ofList N (d.map fun x : Nat => (x : Int))

theorem rowPoly_apply {d : List Nat} (j : Fin N) : rowPoly N d j = ((d.getD j 0 : Nat) : Int) := by
  show (d.map fun x : Nat => (x : Int)).getD j.val 0 = _
  simp only [List.getD_eq_getElem?_getD, List.getElem?_map]
  cases d[j.val]? <;> rfl

/-- Components of a key are the reductions of integer polynomials. -/
abbrev SParts (c : Context) (ps : List (Poly .nttShoup)) (F : List (IntPoly N)) : Prop := List.Forall₂ (fun p f => ∃ vt, p = encI c .nttShoup vt f) ps F

theorem sparts_iff (h : c.WF b n) (hN : c.degree = N) {ps : List (Poly .nttShoup)} {F : List (IntPoly N)} :
    List.Forall₂ (fun p f => p.IsMod c f) ps F ↔ SParts c ps F := by
  constructor
  · exact List.Forall₂.imp fun p f hp => ⟨p.vt, (isMod_iff h hN).1 hp⟩
  · refine List.Forall₂.imp ?_
    rintro _ f ⟨vt, rfl⟩
    exact isMod_encI h hN f

namespace KeySwitchingKey

/-- One digit times one component. -/
theorem constant_mul (h : c.WF b n) (hN : c.degree = N) {d : List Nat} (hd : d.length = N) (h64 : ∀ x ∈ d, x < 2 ^ 64) :
    ∃ p, constantNttLazyVt d c = some p ∧ ∀ (A : IntPoly N) (vt : Bool), p.mulAssignShoup (encI c .nttShoup vt A) = some (encI c .ntt vt (rowPoly N d * A)) := by
  obtain ⟨rows, e1, e2⟩ := constantNttLazyVt_eq h (by omega) h64
  refine ⟨_, e1, fun A vt => ?_⟩
  unfold encI
  rw [mulAssignShoup_lazy h (ofNats c d) (ofInt c A) rfl rfl rfl e2, ofInt_mul hN, rowPoly, ← ofNats_eq_ofInt hN]
  rfl

theorem accumulate_eq (h : c.WF b n) (hN : c.degree = N) : ∀ {ds : List (List Nat)} {c0 c1 : List (Poly .nttShoup)} {A B : List (IntPoly N)}, SParts c c0 A → SParts c c1 B →
    ds.length = A.length → B.length = A.length → (∀ d ∈ ds, d.length = N ∧ ∀ x ∈ d, x < 2 ^ 64) → ∀ (v0 v1 : Bool) (X Y : IntPoly N), ∃ v0' v1',
    accumulate c ds c0 c1 (encI c .ntt v0 X) (encI c .ntt v1 Y) =
      some (encI c .ntt v0' (X + IntPoly.dot (ds.map (rowPoly N)) A), encI c .ntt v1' (Y + IntPoly.dot (ds.map (rowPoly N)) B))
  | [], _, _, _, _, _, _, _, _, _, v0, v1, X, Y => ⟨v0, v1, by simp [accumulate, IntPoly.dot_nil]⟩
  | _ :: _, _, _, _, _, .nil, _, hl, _, _, _, _, _, _ => by simp at hl
  | _ :: _, _, _, _, _, .cons _ _, .nil, _, hl, _, _, _, _, _ => by simp at hl
  | d :: ds, _, _, _, _, .cons (b := a) (l₂ := A) ⟨va, ha⟩ hA, .cons (b := b') (l₂ := B) ⟨vb, hb⟩ hB, hl, hl', hd, v0, v1, X, Y => by
    obtain ⟨p, e1, e2⟩ := constant_mul h hN (hd d (by simp)).1 (hd d (by simp)).2
    obtain ⟨v0', v1', ih⟩ := accumulate_eq h hN hA hB (ds := ds) (by simpa using hl) (by simpa using hl') (fun d hd' => hd d (by simp [hd'])) (v0 && va) (v1 && vb)
      (X + rowPoly N d * a) (Y + rowPoly N d * b')
    refine ⟨v0', v1', ?_⟩
    subst ha hb
    unfold accumulate
    simp only [Option.bind_eq_bind]
    rw [e1, Option.bind_some, e2, Option.bind_some, addAssign_encI h hN (by simp), Option.bind_some, e2, Option.bind_some, addAssign_encI h hN (by simp), Option.bind_some, ih,
      List.map_cons, IntPoly.dot_cons, IntPoly.dot_cons, add_assoc, add_assoc]

end KeySwitchingKey

/-! ## Digits -/

theorem Context.WF.nodup (h : c.WF b n) : c.moduli.Nodup := by
  rw [List.nodup_iff_getElem?_ne_getElem?]
  intro i j hij hj he
  have hi : i < c.moduli.length := by omega
  have hc := h.supported.coprime i j hi hj (by omega)
  rw [List.getElem?_eq_getElem hi, List.getElem?_eq_getElem hj, Option.some_inj] at he
  rw [he, Nat.gcd_self] at hc
  have := (h.supported.range _ (List.getElem_mem hj)).1
  omega

theorem Context.WF.int_dvd (h : c.WF b n) {x : Int} (hx : ∀ q ∈ c.moduli, (q : Int) ∣ x) : (c.modulus : Int) ∣ x := by
  rw [Int.natCast_dvd, h.modulus_eq]
  exact prod_dvd_of_nodup h.nodup h.supported.prime fun q hq => Int.natCast_dvd.1 (hx q hq)

theorem rowPoly_pbRow [NeZero c.modulus] (hN : c.degree = N) (hd : q ∣ c.modulus) (X : IntPoly N) (j : Fin N) : rowPoly N (pbRow (ofInt c X) q) j = X j % q := by
  have hj : j.val < c.degree := by omega
  rw [rowPoly_apply]
  unfold pbRow
  rw [NttOperator.tab_getD _ hj, coeff_ofInt hN, coeff_intCast]
  push_cast
  rw [ZMod.val_intCast, Int.emod_emod_of_dvd _ (by exact_mod_cast hd)]

namespace KeySwitchingKey

theorem digits_length (lb : Nat) : ∀ (k : Nat) (v : List Nat), (digits lb k v).length = k
  | 0, _ => rfl
  | k + 1, v => by rw [digits, List.length_cons, digits_length lb k]

theorem digits_shape (lb : Nat) : ∀ (k : Nat) (v : List Nat), ∀ d ∈ digits lb k v, d.length = v.length ∧ ∀ x ∈ d, x < 2 ^ lb
  | 0, _, d, hd => by simp [digits] at hd
  | k + 1, v, d, hd => by
    rw [digits, List.mem_cons] at hd
    rcases hd with rfl | hd
    · refine ⟨by simp, fun x hx => ?_⟩
      obtain ⟨y, -, rfl⟩ := List.mem_map.1 hx
      rw [and_mask]; exact Nat.mod_lt _ (by positivity)
    · have := digits_shape lb k _ d hd
      simpa using this

/-- The digits in a power of two recombine. -/
theorem digits_sum (lb : Nat) : ∀ (k a : Nat) (v : List Nat), (∀ x ∈ v, x < 2 ^ (lb * k)) → ∀ j : Fin N,
    IntPoly.dot ((digits lb k v).map (rowPoly N)) (((List.range k).map fun i => (2 : Int) ^ ((i + a) * lb)).map C) j = 2 ^ (a * lb) * rowPoly N v j
  | 0, a, v, hv, j => by
    simp only [digits, List.map_nil, IntPoly.dot_nil, Nega.zero_apply]
    rw [rowPoly_apply]
    rcases Nat.lt_or_ge j.val v.length with h | h
    · have := hv _ (List.getElem_mem h)
      rw [List.getD_eq_getElem _ _ h]
      rw [Nat.mul_zero, pow_zero] at this
      rw [show v[j.val] = 0 by omega]; simp
    · rw [List.getD_eq_default _ _ h]; simp
  | k + 1, a, v, hv, j => by
    rw [digits, List.range_succ_eq_map, List.map_cons, List.map_cons, List.map_cons, IntPoly.dot_cons, Nega.add_apply, mul_comm (rowPoly N _), C_mul_apply]
    have ih := digits_sum lb k (a + 1) (v.map (· >>> lb)) (fun x hx => by
      obtain ⟨y, hy, rfl⟩ := List.mem_map.1 hx
      rw [Nat.shiftRight_eq_div_pow]
      refine Nat.div_lt_of_lt_mul ?_
      rw [← pow_add]
      exact (hv y hy).trans_le (Nat.pow_le_pow_right (by norm_num) (by rw [Nat.mul_succ]; omega))) j
    rw [List.map_map (f := Nat.succ)]
    have e : ((fun i => (2 : Int) ^ ((i + a) * lb)) ∘ Nat.succ) = fun i => (2 : Int) ^ ((i + (a + 1)) * lb) := by
      funext i; simp only [Function.comp]; congr 2; omega
    rw [e, ih]
    simp only [rowPoly_apply, List.getD_eq_getElem?_getD, List.getElem?_map]
    cases v[j.val]? with
    | none => simp
    | some x =>
      simp only [Option.map_some, Option.getD_some, and_mask, Nat.shiftRight_eq_div_pow, zero_add]
      have hx := Nat.div_add_mod x (2 ^ lb)
      have : (x : Int) = 2 ^ lb * ((x / 2 ^ lb : Nat) : Int) + ((x % 2 ^ lb : Nat) : Int) := by exact_mod_cast hx.symm
      rw [this, show (a + 1) * lb = a * lb + lb by ring, pow_add]
      generalize ((x / 2 ^ lb : Nat) : Int) = y
      generalize ((x % 2 ^ lb : Nat) : Int) = z
      ring

/-- The digits of a polynomial: how `key_switch` gets them, their sizes and their recombination. -/
theorem exists_digits {k : KeySwitchingKey} {G : List Int} (hG : k.Gadget G) (h : k.ctxCiphertext.WF b n) (hN : k.ctxCiphertext.degree = N) (vt : Bool) (X : IntPoly N) :
    ∃ ds : List (List Nat), ds.length = G.length ∧ (∀ d ∈ ds, d.length = N ∧ ∀ x ∈ d, x < 2 ^ 64) ∧
      (∃ H, IntPoly.dot (ds.map (rowPoly N)) (G.map C) = X + C (k.ctxCiphertext.modulus : Int) * H) ∧
      (∀ (i : Nat) (d : IntPoly N), (ds.map (rowPoly N))[i]? = some d → ∀ j, 0 ≤ d j ∧ d j < k.digitBound i) ∧
      (let p := encI k.ctxCiphertext .powerBasis vt X
       let z := k.configure p (Poly.zero .ntt k.ctxKsk)
       k.keySwitch p = lift (accumulate k.ctxKsk ds k.c0 k.c1 z z) ∧
       ∀ o0 o1, k.configure p (k.resetFor o0) = z → k.configure p (k.resetFor o1) = z → k.keySwitchAssign p o0 o1 = lift (accumulate k.ctxKsk ds k.c0 k.c1 z z)) := by
  have := h.neZero
  have hops : k.ctxCiphertext.moduli = k.ctxCiphertext.ops.map fun op => op.p.p := h.level.moduli
  cases hG with
  | residues base count crt =>
    have hrow : (encI k.ctxCiphertext .powerBasis vt X).coeffs = k.ctxCiphertext.moduli.map fun q => pbRow (ofInt k.ctxCiphertext X) q := by
      rw [hops, List.map_map]; rfl
    have hdv : ∀ q ∈ k.ctxCiphertext.moduli, q ∣ k.ctxCiphertext.modulus := fun q hq => by rw [h.modulus_eq]; exact List.dvd_prod hq
    refine ⟨(encI k.ctxCiphertext .powerBasis vt X).coeffs, by rw [hrow, List.length_map, count], ?_, ?_, ?_, ?_, ?_⟩
    · intro d hd
      rw [hrow] at hd
      obtain ⟨q, hq, rfl⟩ := List.mem_map.1 hd
      have hr := h.supported.range q hq
      exact ⟨by rw [length_pbRow, hN], fun x hx => (pbRow_lt (by omega) _ x hx).trans (hr.2.trans (by norm_num))⟩
    · have := h.neZero
      refine (ofInt_eq_iff_exists hN _ X).1 ((ofInt_eq_iff hN _ X).2 fun j => h.int_dvd fun q hq => ?_)
      obtain ⟨i, hi, rfl⟩ := List.getElem_of_mem hq
      have h1 := IntPoly.dot_mod (N := N) (q := (k.ctxCiphertext.moduli[i] : Nat)) (D := (encI k.ctxCiphertext .powerBasis vt X).coeffs.map (rowPoly N)) (G := G) (k := i)
        (by rw [List.length_map, hrow, List.length_map, count]) (fun i' g hg => crt i' i _ g (by simp) hg) (rowPoly N (pbRow (ofInt k.ctxCiphertext X) k.ctxCiphertext.moduli[i]))
        (by rw [hrow, List.map_map, List.getElem?_map, List.getElem?_eq_getElem hi]; rfl) j
      rw [rowPoly_pbRow hN (hdv _ hq)] at h1
      have h2 : ((k.ctxCiphertext.moduli[i] : Nat) : Int) ∣ X j - X j % (k.ctxCiphertext.moduli[i] : Nat) := Int.dvd_self_sub_emod
      have := dvd_sub h1 h2
      rwa [show ∀ a b c : Int, a - b - (c - b) = a - c by intros; ring] at this
    · intro i d hd j
      rw [hrow, List.map_map, List.getElem?_map, Option.map_eq_some_iff] at hd
      obtain ⟨q, hq, rfl⟩ := hd
      have hr := h.supported.range q (List.mem_of_getElem? hq)
      show 0 ≤ rowPoly N (pbRow (ofInt k.ctxCiphertext X) q) j ∧ rowPoly N (pbRow (ofInt k.ctxCiphertext X) q) j < _
      rw [rowPoly_pbRow hN (hdv _ (List.mem_of_getElem? hq)), digitBound, if_pos base, List.getD_eq_getElem?_getD, hq, Option.getD_some]
      exact ⟨Int.emod_nonneg _ (by omega), Int.emod_lt_of_pos _ (by omega)⟩
    · unfold keySwitch
      rw [if_neg (by simpa using base), if_neg (by simp [ctx_encI])]
    · intro o0 o1 h0 h1
      unfold keySwitchAssign
      rw [if_neg (by simpa using base), if_neg (by simp [ctx_encI]), h0, h1]
  | @powers q count base word one enough exact =>
    have hops1 := hops
    rw [one] at hops1
    have hq := h.supported.range q (by rw [one]; simp)
    have hdv : q ∣ k.ctxCiphertext.modulus := by rw [h.modulus_eq, one]; simp
    have hrow : (encI k.ctxCiphertext .powerBasis vt X).coeffs.flatten = pbRow (ofInt k.ctxCiphertext X) q := by
      have : (encI k.ctxCiphertext .powerBasis vt X).coeffs = k.ctxCiphertext.moduli.map fun q => pbRow (ofInt k.ctxCiphertext X) q := by
        rw [hops, List.map_map]; rfl
      rw [this, one]; simp
    have hdec : ∀ z, z = k.configure (encI k.ctxCiphertext .powerBasis vt X) (Poly.zero .ntt k.ctxKsk) →
        k.keySwitchDecomposition (encI k.ctxCiphertext .powerBasis vt X) =
        lift (accumulate k.ctxKsk (digits k.logBase count (pbRow (ofInt k.ctxCiphertext X) q)) k.c0 k.c1 z z) := by
      intro z hz
      subst hz
      unfold keySwitchDecomposition
      rw [if_neg (by simp [ctx_encI]), ctx_encI, one, List.head?_cons, Res.lift_some, Res.ok_bind]
      unfold logModulus pow64 divCeil
      rw [check_eq (show q ≤ 2 ^ 63 by omega), check_eq word, check_eq (show k.logBase ≠ 0 by omega)]
      simp only [Option.bind_eq_bind, Option.bind_some, Option.pure_def, Res.lift_some, Res.ok_bind]
      rw [← exact, hrow]
    refine ⟨digits k.logBase count (pbRow (ofInt k.ctxCiphertext X) q), by rw [digits_length]; simp, ?_, ?_, ?_, ?_, ?_⟩
    · intro d hd
      obtain ⟨h1, h2⟩ := digits_shape _ _ _ d hd
      exact ⟨by rw [h1, length_pbRow, hN], fun x hx => (h2 x hx).trans (Nat.pow_lt_pow_right (by norm_num) word)⟩
    · have := h.neZero
      refine (ofInt_eq_iff_exists hN _ X).1 ((ofInt_eq_iff hN _ X).2 fun j => ?_)
      have hs := digits_sum (N := N) k.logBase count 0 (pbRow (ofInt k.ctxCiphertext X) q) (fun x hx => (pbRow_lt (by omega) _ x hx).trans_le enough) j
      simp only [add_zero, zero_mul, pow_zero, one_mul] at hs
      rw [hs, rowPoly_pbRow hN hdv, h.modulus_eq, one, List.prod_singleton, dvd_sub_comm]
      exact Int.dvd_self_sub_emod
    · intro i d hd j
      rw [List.getElem?_map, Option.map_eq_some_iff] at hd
      obtain ⟨d', hd', rfl⟩ := hd
      obtain ⟨h1, h2⟩ := digits_shape _ _ _ d' (List.mem_of_getElem? hd')
      rw [rowPoly_apply, digitBound, if_neg (by omega)]
      refine ⟨by positivity, ?_⟩
      rcases Nat.lt_or_ge j.val d'.length with h | h
      · rw [List.getD_eq_getElem _ _ h]; exact_mod_cast h2 _ (List.getElem_mem h)
      · rw [List.getD_eq_default _ _ h]; positivity
    · unfold keySwitch
      rw [if_pos (by omega)]
      exact hdec _ rfl
    · intro o0 o1 _ _
      unfold keySwitchAssign
      rw [if_pos (by omega)]
      exact hdec _ rfl


/-! ## Switching -/

theorem configure_zero (h : c.WF b n) (hN : c.degree = N) (k : KeySwitchingKey) (p : Poly .powerBasis) : ∃ v, k.configure p (Poly.zero .ntt c) = encI c .ntt v (0 : IntPoly N) := by
  unfold configure
  rw [zero_encI h hN]
  split
  · exact ⟨true, allowVt_encI _⟩
  · exact ⟨false, disallowVt_encI _⟩

theorem configure_reset {k : KeySwitchingKey} (h : k.ctxKsk.WF b n) (p : Poly .powerBasis) {o : Poly .ntt} (ho : o.Valid) :
    k.configure p (k.resetFor o) = k.configure p (Poly.zero .ntt k.ctxKsk) := by
  unfold resetFor
  by_cases hc : o.ctx ≠ k.ctxKsk
  · rw [if_pos hc]
  rw [if_neg hc]
  rw [not_not] at hc
  have hz : o.coeffs.map (fun row => row.map fun _ => 0) = zeroRows k.ctxKsk.q.length k.ctxKsk.degree := by
    unfold zeroRows
    rw [List.eq_replicate_iff]
    refine ⟨by rw [List.length_map, ho.rows, hc, h.level.moduli, h.level.q, List.length_map, List.length_map], fun row hrow => ?_⟩
    obtain ⟨r, hr, rfl⟩ := List.mem_map.1 hrow
    rw [List.map_const', ho.columns r hr, hc]
  have h1 := ho.notLazy
  have h2 := ho.shoup
  rcases o with ⟨oc, ol, ov, occ, os⟩
  simp only at hc hz h1 h2 ⊢
  subst hc
  rw [h1, h2, hz]
  unfold configure
  split <;> rfl

variable {par : Par} {s F : IntPoly par.degree} {k : KeySwitchingKey} {E : List (IntPoly par.degree)}

/-- What `key_switch` computes. -/
theorem keySwitch_eq (hw : ParWF b n par.toBfvParameters) (hk : k.Switches par s F E) (vt : Bool) (X : IntPoly par.degree) :
    ∃ (D : List (IntPoly par.degree)) (A B H : IntPoly par.degree) (v0 v1 : Bool),
      k.keySwitch (encI k.ctxCiphertext .powerBasis vt X) = Res.ok (encI k.ctxKsk .ntt v0 A, encI k.ctxKsk .ntt v1 B) ∧
      A + B * s = (X + C (k.ctxCiphertext.modulus : Int) * H) * F + IntPoly.dot D E ∧ D.length = E.length ∧
      (∀ (i : Nat) (d : IntPoly par.degree), D[i]? = some d → ∀ j, 0 ≤ d j ∧ d j < k.digitBound i) ∧
      ∀ o0 o1 : Poly .ntt, o0.Valid → o1.Valid → k.keySwitchAssign (encI k.ctxCiphertext .powerBasis vt X) o0 o1 = k.keySwitch (encI k.ctxCiphertext .powerBasis vt X) := by
  obtain ⟨l, hl, hc⟩ := ParWF.contextAtLevel_iff.1 hk.ctx
  obtain ⟨l', hl', hc'⟩ := ParWF.contextAtLevel_iff.1 hk.ctxKsk
  have ha := AtLevel.ofGet hw hl
  have ha' := AtLevel.ofGet hw hl'
  have hwf : k.ctxCiphertext.WF b n := by rw [← hc]; exact ha.wf
  have hwf' : k.ctxKsk.WF b n := by rw [← hc']; exact ha'.wf
  have hN : k.ctxCiphertext.degree = par.degree := by rw [← hc]; exact ha.deg
  have hN' : k.ctxKsk.degree = par.degree := by rw [← hc']; exact ha'.deg
  obtain ⟨A, B, G, hG, hA, hB, ⟨hlA, hlB, hlE⟩, hrow⟩ := hk.parts
  obtain ⟨ds, e1, e2, ⟨H, e3⟩, e4, e5, e6⟩ := exists_digits hG hwf hN vt X
  obtain ⟨v, hv⟩ := configure_zero hwf' hN' k (encI k.ctxCiphertext .powerBasis vt X)
  obtain ⟨v0, v1, hacc⟩ := accumulate_eq hwf' hN' ((sparts_iff hwf' hN').1 hA) ((sparts_iff hwf' hN').1 hB) (ds := ds) (by omega) (by omega) e2 v v 0 0
  have hdot := IntPoly.dot_rows (D := ds.map (rowPoly par.degree)) hlA hlB hlE (by rw [List.length_map, e1]) fun i a b e g h1 h2 h3 h4 => by
    apply Nega.ext; intro j
    rw [hrow i a b e g h1 h2 h3 h4 j, Nega.add_apply, C_mul_apply]
  rw [zero_add, zero_add] at hacc
  rw [e3] at hdot
  refine ⟨ds.map (rowPoly par.degree), _, _, H, v0, v1, ?_, by rw [hdot]; ring, by rw [List.length_map, e1, hlE], e4, fun o0 o1 h0 h1 => ?_⟩
  · rw [e5, hv, hacc, Res.lift_some]
  · rw [e6 o0 o1 (configure_reset hwf' _ h0) (configure_reset hwf' _ h1), e5]

end KeySwitchingKey
end Fhe
