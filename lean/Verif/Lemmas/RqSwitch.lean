import Verif.Lemmas.RqSubst
/-! Modulus switching. -/
namespace Fhe
open NttOperator Nega

theorem zipAssign_tab {N : Nat} {F : Nat → Nat → Panics Nat} {f g k : Nat → Nat} (h : ∀ j < N, F (f j) (g j) = some (k j)) :
    Modulus.zipAssign F (tab N f) (tab N g) = some (tab N k) := by
  induction N generalizing f g k with
  | zero => rfl
  | succ N ih =>
    rw [tab_succ, tab_succ, tab_succ, Modulus.zipAssign, h 0 (by omega)]
    simp only [Option.bind_eq_bind, Option.bind_some]
    rw [ih (k := fun i => k (i + 1)) fun j hj => h (j + 1) (by omega)]
    rfl

namespace Poly
variable {b : Build} {c : Context} {n : Nat} {vt : Bool}

/-- Division by `q` with rounding of every coefficient, in a ring modulo `Q'`. -/
def roundDiv {N Q : Nat} (N' Q' q : Nat) (f : Nega N (ZMod Q)) : Nega N' (ZMod Q') :=
  Nega.ofFn fun j => (((coeff f j).val + q / 2) / q : Nat)

theorem switchDownCoeff_eq {m : Modulus} (hm : m.WF) (hp : m.p.Prime) {ql X : Nat} (hd : ¬ m.p ∣ ql) (hql : 0 < ql) (hq62 : ql < 2 ^ 62) :
    switchDownCoeff m (invVal m.p ql) (invVal m.p ql * 2 ^ 64 / m.p) (m.p - ql / 2 % m.p) (X % m.p) ((X % ql + ql / 2) % ql) =
      some ((X + ql / 2) / ql % m.p) := by
  have h62 := hm.lt
  have hr0 : (X % ql + ql / 2) % ql < ql := Nat.mod_lt _ hql
  obtain ⟨r, h1, h2, h3⟩ := Modulus.lazyReduce_eq hm (a := (X % ql + ql / 2) % ql) (by omega)
  have hh : ql / 2 % m.p < m.p := Nat.mod_lt _ hm.pos
  have hx : X % m.p < m.p := Nat.mod_lt _ hm.pos
  have hinv := invVal_lt hm.pos ql
  unfold switchDownCoeff
  simp only [h1, Option.bind_eq_bind, Option.bind_some]
  rw [add64_eq (by omega), Option.bind_some, mul64_eq (by omega), Option.bind_some, subU_eq (by omega), Option.bind_some,
    add64_eq (by omega), Option.bind_some, Modulus.mulShoup_eq hm (by omega) hinv (Modulus.shoup_eq hm hinv)]
  congr 1
  apply (ZMod.natCast_eq_natCast_iff _ _ _).1
  have key : (invVal m.p ql : ZMod m.p) * ql = 1 := invVal_mul hp hd
  rw [Nat.cast_mul, Nat.cast_add, Nat.cast_sub (by omega), Nat.cast_add, Nat.cast_sub hh.le, ZMod.natCast_mod, ZMod.natCast_mod, Nat.cast_mul,
    CharP.cast_eq_zero (ZMod m.p) m.p]
  have hr : (r : ZMod m.p) = (((X + ql / 2) % ql : Nat) : ZMod m.p) := by
    rw [← Nat.mod_add_mod X ql (ql / 2)]
    exact (ZMod.natCast_eq_natCast_iff _ _ _).2 h3
  have hdm : (((X + ql / 2 : Nat)) : ZMod m.p) = (ql : ZMod m.p) * ((X + ql / 2) / ql : Nat) + ((X + ql / 2) % ql : Nat) := by
    rw [← Nat.cast_mul, ← Nat.cast_add, Nat.div_add_mod]
  rw [Nat.cast_add] at hdm
  rw [hr]
  linear_combination (invVal m.p ql : ZMod m.p) * hdm + (((X + ql / 2) / ql : Nat) : ZMod m.p) * key

theorem enc_pb_coeffs (h : c.WF b n) (f : c.Elem) : (enc c .powerBasis vt f).coeffs = c.moduli.map fun q => pbRow f q := by
  rw [h.level.moduli, List.map_map]; rfl

theorem switchDown_enc (h : c.WF b n) {c' : Context} (hnext : c.next = some c') (h' : c'.WF b n) (hm' : c'.moduli = c.moduli.dropLast) (f : c.Elem) :
    (enc c .powerBasis vt f).switchDown =
      some (.ok (enc c' .powerBasis vt (roundDiv c'.degree c'.modulus (c.moduli.getLastD 0) f))) := by
  have := h.neZero
  have := h'.neZero
  have hpos := h'.length_pos
  have hlen : c'.moduli.length = c.moduli.length - 1 := by rw [hm', List.length_dropLast]
  set L := c.ops.getLast h.level.ne_nil with hL
  have hops : c.ops = c.ops.dropLast ++ [L] := (List.dropLast_append_getLast h.level.ne_nil).symm
  have hLmem : L ∈ c.ops := List.getLast_mem _
  obtain ⟨ωL, ωLi, hwL⟩ := h.level.ops L hLmem
  have hmod : c.moduli = c.ops.dropLast.map (·.p.p) ++ [L.p.p] := by
    rw [h.level.moduli]; conv_lhs => rw [hops]
    rw [List.map_append]; rfl
  have hlast : c.moduli.getLastD 0 = L.p.p := by rw [hmod]; simp
  have hdrop : c.moduli.dropLast = c.ops.dropLast.map (·.p.p) := by rw [hmod]; simp
  have hq : c.q = c.ops.dropLast.map (·.p) ++ [L.p] := by
    rw [h.level.q]; conv_lhs => rw [hops]
    rw [List.map_append]; rfl
  have hNN : c'.degree = c.degree := by rw [h.level.degree, h'.level.degree]
  set D := c.ops.dropLast with hD
  have hcoeffs : (enc c .powerBasis vt f).coeffs = D.map (fun op => pbRow f op.p.p) ++ [pbRow f L.p.p] := by
    rw [enc_pb_coeffs h, hmod, List.map_append, List.map_map]; rfl
  have hLlt := hwL.modulus.lt
  have hL2 := hwL.modulus.two_le
  unfold switchDown
  simp only [show (enc c .powerBasis vt f).ctx = c from rfl, hnext, show (enc c .powerBasis vt f).vt = vt from rfl]
  have hql : c.q.length = D.length + 1 := by rw [hq]; simp
  rw [show c.q.getLast? = some L.p by rw [hq]; simp, Option.bind_eq_bind, Option.bind_some, hql, subU_eq (by omega)]
  simp only [Option.bind_eq_bind, Option.bind_some, Nat.add_sub_cancel]
  rw [hcoeffs, List.getElem?_append_right (by simp), List.length_map, Nat.sub_self]
  simp only [List.getElem?_cons_zero, Option.bind_some]
  have hlastRow : (pbRow f L.p.p).mapM (fun x => if vt then L.p.addVt x (L.p.p / 2) else L.p.add x (L.p.p / 2)) =
      some (tab c.degree fun j => ((coeff f j).val % L.p.p + L.p.p / 2) % L.p.p) := by
    unfold pbRow
    refine tab_mapM fun j _ => ?_
    have hx : (coeff f j).val % L.p.p < L.p.p := Nat.mod_lt _ hwL.modulus.pos
    rw [Modulus.addVt_eq hwL.modulus hx (by omega), Modulus.add_eq hwL.modulus hx (by omega), ite_self]
  rw [hlastRow, Option.bind_some, List.take_left' (by simp), hq, h.level.invLast, h.level.invLastShoup, hlast, ← hD, zip_map_same]
  rw [show (D.map (·.p) ++ [L.p]).zip (D.map fun op => (invVal op.p.p L.p.p, invVal op.p.p L.p.p * 2 ^ 64 / op.p.p)) =
      D.map fun op => (op.p, invVal op.p.p L.p.p, invVal op.p.p L.p.p * 2 ^ 64 / op.p.p) by
    rw [← List.append_nil (D.map fun op => (invVal op.p.p L.p.p, invVal op.p.p L.p.p * 2 ^ 64 / op.p.p)),
      List.zip_append (by simp), zip_map_same]; simp]
  rw [zipRows_map (k := fun op => pbRow (roundDiv c'.degree c'.modulus L.p.p f) op.p.p)]
  · rw [Option.bind_some]
    have := enc_pb_coeffs (vt := vt) h' (roundDiv c'.degree c'.modulus L.p.p f)
    rw [hm', hdrop, List.map_map] at this
    unfold enc
    simp only [show Rep.powerBasis ≠ Rep.nttShoup by decide, if_false]
    exact congrArg (fun rows => some (Except.ok (ε := MathError) (Poly.mk (r := .powerBasis) c' false vt rows none))) this.symm
  intro op hop
  have hop2 : op ∈ c.ops := List.mem_of_mem_dropLast hop
  obtain ⟨ω, ωi, hw⟩ := h.level.ops op hop2
  have hnd : ¬ op.p.p ∣ L.p.p := by
    have := Context.getLast_ne h.supported.coprime h.supported.prime (q := op.p.p) (by rw [hdrop]; exact List.mem_map.2 ⟨op, hop, rfl⟩)
    rwa [hlast] at this
  have hdvd : op.p.p ∣ c'.modulus := by
    have hmem : op.p.p ∈ c'.moduli := by rw [hm', hdrop]; exact List.mem_map.2 ⟨op, hop, rfl⟩
    rw [h'.level.moduli] at hmem
    obtain ⟨op', ho, he⟩ := List.mem_map.1 hmem
    rw [← he]; exact h'.dvd ho
  unfold switchDownRow
  have hsel : reduceSel vt op.p (L.p.p / 2) = some (L.p.p / 2 % op.p.p) := by
    unfold reduceSel
    rw [Modulus.reduceVt_eq hw.modulus (by omega), Modulus.reduce_eq hw.modulus (by omega), ite_self]
  rw [hsel]
  simp only [Option.bind_eq_bind, Option.bind_some]
  rw [subU_eq (Nat.mod_lt _ hw.modulus.pos).le, Option.bind_some]
  unfold roundDiv
  rw [pbRow_ofFn hdvd, hNN]
  unfold pbRow
  rw [zipAssign_tab fun j _ => switchDownCoeff_eq hw.modulus hw.prime hnd (by omega) hLlt]
  congr 1
  refine tab_congr fun j _ => ?_
  rw [map_natCast, ZMod.val_natCast]

/-- Division with rounding by several integers, one after the other. -/
def roundDivs {N Q : Nat} (N' Q' : Nat) (qs : List Nat) (f : Nega N (ZMod Q)) : Nega N' (ZMod Q') :=
  Nega.ofFn fun j => (qs.foldl (fun X q => (X + q / 2) / q) (coeff f j).val : Nat)

/-- Reducing modulo the product first does not matter. -/
theorem foldl_round_mod (qs : List Nat) (hq : ∀ q ∈ qs, 0 < q) (Q X : Nat) :
    qs.foldl (fun X q => (X + q / 2) / q) (X % (qs.prod * Q)) % Q = qs.foldl (fun X q => (X + q / 2) / q) X % Q := by
  induction qs generalizing X with
  | nil => simp
  | cons q qs ih =>
    have hq0 := hq q (by simp)
    rw [List.foldl_cons, List.foldl_cons, List.prod_cons, ← ih (fun x hx => hq x (by simp [hx])),
      ← ih (fun x hx => hq x (by simp [hx])) ((X + q / 2) / q)]
    congr 2
    conv_rhs => rw [← Nat.div_add_mod X (q * qs.prod * Q), show q * qs.prod * Q * (X / (q * qs.prod * Q)) + X % (q * qs.prod * Q) + q / 2 =
      (X % (q * qs.prod * Q) + q / 2) + q * (qs.prod * Q * (X / (q * qs.prod * Q))) by ring, Nat.add_mul_div_left _ _ hq0]
    rw [Nat.add_mul_mod_self_left]

theorem switchDownLoop_enc (h : c.WF b n) {i : Nat} (hi : i < c.moduli.length) (f : c.Elem) :
    ∃ t, Context.descend i c = some t ∧ t.WF b n ∧ t.moduli = c.moduli.take (c.moduli.length - i) ∧
      switchDownLoop i (enc c .powerBasis vt f) =
        some (.ok (enc t .powerBasis vt (roundDivs t.degree t.modulus (c.moduli.drop (c.moduli.length - i)).reverse f))) := by
  induction i generalizing c with
  | zero =>
    have := h.neZero
    refine ⟨c, rfl, h, by simp, ?_⟩
    rw [switchDownLoop]
    congr 3
    simp only [Nat.sub_zero, List.drop_length, List.reverse_nil]
    apply Nega.ext; intro j
    simp only [roundDivs, Nega.ofFn, List.foldl_nil, coeff_val, ZMod.natCast_val, ZMod.cast_id', id]
  | succ i ih =>
    obtain ⟨c1, h1, h2, h3⟩ := h.next_some (by omega)
    have hl : c1.moduli.length = c.moduli.length - 1 := by rw [h3, List.length_dropLast]
    obtain ⟨t, h4, h5, h6, h7⟩ := ih h2 (by omega) (roundDiv c1.degree c1.modulus (c.moduli.getLastD 0) f)
    refine ⟨t, by rw [Context.descend, h1]; exact h4, h5, ?_, ?_⟩
    · rw [h6, h3, List.length_dropLast, List.dropLast_eq_take, List.take_take]
      congr 1; omega
    rw [switchDownLoop, switchDown_enc h h1 h2 h3]
    simp only [Option.bind_eq_bind, Option.bind_some]
    rw [h7]
    congr 3
    apply Nega.ext; intro j
    have hj : (j : Nat) < c1.degree := by rw [h2.level.degree, ← h5.level.degree]; exact j.2
    have := h2.neZero
    simp only [roundDivs, Nega.ofFn]
    have hcd : c.moduli = c.moduli.dropLast ++ [c.moduli.getLastD 0] := by
      have hne := h.supported.ne_nil
      conv_lhs => rw [← List.dropLast_append_getLast hne]
      rw [List.getLastD_eq_getLast?, List.getLast?_eq_some_getLast hne]; rfl
    have hdrop : (c.moduli.drop (c.moduli.length - (i + 1))).reverse =
        c.moduli.getLastD 0 :: (c1.moduli.drop (c1.moduli.length - i)).reverse := by
      have e : c.moduli.length - (i + 1) = c1.moduli.length - i := by omega
      rw [e]
      conv_lhs => rw [hcd]
      rw [← h3, List.drop_append_of_le_length (by omega), List.reverse_append]; rfl
    have hprod : (c1.moduli.drop (c1.moduli.length - i)).reverse.prod * t.modulus = c1.modulus := by
      have e1 : t.modulus = t.moduli.prod := by rw [Context.modulus, ← h5.level.rns_moduli]; exact h5.level.rns.product
      have e2 : c1.modulus = c1.moduli.prod := by rw [Context.modulus, ← h2.level.rns_moduli]; exact h2.level.rns.product
      rw [e1, e2, h6, List.prod_reverse, mul_comm, List.prod_take_mul_prod_drop]
    rw [hdrop, List.foldl_cons]
    apply (ZMod.natCast_eq_natCast_iff _ _ _).2
    unfold Nat.ModEq
    rw [roundDiv, coeff_of_lt _ hj]
    simp only [Nega.ofFn]
    rw [ZMod.val_natCast, ← hprod, foldl_round_mod]
    intro q hq
    have hq : q ∈ c1.moduli := List.mem_of_mem_drop (List.mem_reverse.1 hq)
    exact (h2.supported.prime q hq).pos

end Poly
end Fhe
