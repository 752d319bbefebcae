import Verif.Lemmas.RqRep
/-! Conversions between integers and polynomials. -/
namespace Fhe
open NttOperator Nega

theorem copyPrefix_eq {N : Nat} {v : List Nat} (h : v.length ≤ N) :
    Poly.copyPrefix (List.replicate N 0) v = some (tab N fun j => v.getD j 0) := by
  unfold Poly.copyPrefix
  rw [check_eq (by rw [List.length_replicate]; exact h)]
  simp only [Option.bind_eq_bind, Option.bind_some, Option.pure_def, Option.some.injEq]
  obtain ⟨d, rfl⟩ := Nat.exists_eq_add_of_le h
  rw [tab_add, ← tab_of_length rfl, List.drop_replicate]
  congr 1
  rw [show v.length + d - v.length = d by omega, replicate_eq_tab]
  refine tab_congr fun i _ => ?_
  simp [List.getD_eq_getElem?_getD]

theorem zeroRows_eq {c : Context} {b : Build} {n : Nat} (h : c.WF b n) : zeroRows c.q.length c.degree = c.ops.map fun _ => List.replicate c.degree 0 := by
  unfold zeroRows
  rw [h.level.q, List.length_map, List.map_const']

namespace Poly
variable {b : Build} {c : Context} {n : Nat} {r : Rep} {vt vt' : Bool}

theorem zero_enc (h : c.WF b n) (r : Rep) : Poly.zero r c = enc c r false 0 := by
  have := h.neZero
  have hrow : ∀ op ∈ c.ops, encRow r (0 : c.Elem) op = List.replicate c.degree 0 := by
    intro op hop
    obtain ⟨ω, ωi, hw⟩ := h.level.ops op hop
    obtain ⟨Λ, k1, -, -⟩ := encRow_lin hw h.level.degree (h.dvd hop) r
    rw [k1, replicate_eq_tab]
    exact tab_congr fun x _ => by rw [map_zero, ZMod.val_zero]
  unfold Poly.zero enc
  have e1 : (c.ops.map fun op => encRow r (0 : c.Elem) op) = zeroRows c.q.length c.degree := by
    rw [zeroRows_eq h]; exact List.map_congr_left hrow
  have e2 : (c.ops.map fun op => shoupRow (encRow r (0 : c.Elem) op) op.p.p) = zeroRows c.q.length c.degree := by
    rw [zeroRows_eq h]
    refine List.map_congr_left fun op hop => ?_
    rw [hrow op hop, shoupRow, List.map_replicate, Nat.zero_mul, Nat.zero_div]
  rw [e1, e2]

/-- The element whose coefficients are the given integers. -/
def ofNats (c : Context) (v : List Nat) : c.Elem := Nega.ofFn fun j => (v.getD j 0 : ZMod c.modulus)
/-- The element whose coefficients are the given integers. -/
def ofInts (c : Context) (v : List Int) : c.Elem := Nega.ofFn fun j => (v.getD j 0 : ZMod c.modulus)

theorem pbRow_ofFn {q : Nat} {N Q : Nat} [NeZero Q] (hq : q ∣ Q) (g : Nat → ZMod Q) :
    pbRow (Nega.ofFn g : Nega N (ZMod Q)) q = tab N fun j => (ZMod.castHom hq (ZMod q) (g j)).val := by
  rw [pbRow_eq hq]
  exact tab_congr fun j hj => by rw [coeff_of_lt _ hj]; rfl

theorem pbRow_ofNats (h : c.WF b n) {op : NttOperator} (hop : op ∈ c.ops) (v : List Nat) :
    pbRow (ofNats c v) op.p.p = tab c.degree fun j => v.getD j 0 % op.p.p := by
  have := h.neZero
  unfold ofNats
  rw [pbRow_ofFn (h.dvd hop)]
  exact tab_congr fun j _ => by rw [map_natCast, ZMod.val_natCast]

theorem tryFromU64_short (h : c.WF b n) {v : List Nat} (hv : v.length ≤ c.degree) (hne : v.length ≠ c.moduli.length * c.degree)
    (h64 : ∀ x ∈ v, x < 2 ^ 64) : tryFromU64 v c vt = some (.ok (enc c .powerBasis vt (ofNats c v))) := by
  have := h.neZero
  have hql : c.q.length = c.moduli.length := by rw [h.level.q, h.level.moduli, List.length_map, List.length_map]
  unfold tryFromU64
  rw [if_neg (by rw [hql]; exact hne), if_pos hv]
  simp only [Poly.zero]
  rw [zeroRows_eq h, h.level.q, zipRows_map (k := fun op => encRow .powerBasis (ofNats c v) op)]
  · rfl
  intro op hop
  obtain ⟨ω, ωi, hw⟩ := h.level.ops op hop
  rw [copyPrefix_eq hv, Option.bind_eq_bind, Option.bind_some]
  have e : ∀ x ∈ tab c.degree (fun j => v.getD j 0), x < 2 ^ 64 := by
    intro x hx
    obtain ⟨j, -, rfl⟩ := mem_tab.1 hx
    rw [List.getD_eq_getElem?_getD]
    rcases hj : v[j]? with _ | y
    · norm_num
    · exact h64 y (List.mem_of_getElem? hj)
  simp only [Modulus.reduceVec_eq hw.modulus e, Modulus.reduceVecVt_eq hw.modulus e, ite_self]
  rw [tab_map, show encRow .powerBasis (ofNats c v) op = pbRow (ofNats c v) op.p.p from rfl, pbRow_ofNats h hop]

theorem tryFromU64_long (h : c.WF b n) {v : List Nat} (hv : ¬ v.length ≤ c.degree) (hne : v.length ≠ c.moduli.length * c.degree) :
    tryFromU64 v c vt = some (.error (.invalidCoefficientCount v.length c.degree c.moduli.length)) := by
  have hql : c.q.length = c.moduli.length := by rw [h.level.q, h.level.moduli, List.length_map, List.length_map]
  unfold tryFromU64
  rw [if_neg (by rw [hql]; exact hne), if_neg hv, hql]

theorem splitRows_flatten {N : Nat} (rows : List (List Nat)) (h : ∀ row ∈ rows, row.length = N) : splitRows N rows.length rows.flatten = rows := by
  induction rows with
  | nil => rfl
  | cons r rs ih =>
    have hr := h r (by simp)
    simp only [List.length_cons, splitRows, List.flatten_cons]
    rw [List.take_left' hr, List.drop_left' hr, ih fun row hrow => h row (by simp [hrow])]

theorem length_flatten_rows {N : Nat} (rows : List (List Nat)) (h : ∀ row ∈ rows, row.length = N) : rows.flatten.length = rows.length * N := by
  induction rows with
  | nil => simp
  | cons r rs ih =>
    rw [List.flatten_cons, List.length_append, h r (by simp), ih fun row hrow => h row (by simp [hrow]), List.length_cons]; ring

theorem fromShapeVec_flatten {N : Nat} (rows : List (List Nat)) (h : ∀ row ∈ rows, row.length = N) : fromShapeVec rows.length N rows.flatten = some rows := by
  unfold fromShapeVec
  rw [if_pos (length_flatten_rows rows h), splitRows_flatten rows h]

theorem coeffs_shape (h : c.WF b n) (f : c.Elem) : (enc c r vt f).coeffs.length = c.q.length ∧ ∀ row ∈ (enc c r vt f).coeffs, row.length = c.degree :=
  ⟨by rw [(valid_enc h f).rows, h.level.q]; change c.moduli.length = _; rw [h.level.moduli, List.length_map, List.length_map], (valid_enc h f).columns⟩

theorem tryFromU64_rows (h : c.WF b n) (f : c.Elem) : tryFromU64 (enc c .powerBasis vt' f).toU64 c vt = some (.ok (enc c .powerBasis vt f)) := by
  obtain ⟨h1, h2⟩ := coeffs_shape (r := .powerBasis) (vt := vt') h f
  unfold tryFromU64 toU64
  rw [if_pos (by rw [length_flatten_rows _ h2, h1]), ← h1, fromShapeVec_flatten _ h2]
  rfl

theorem tryFromU64Ntt_rows (h : c.WF b n) (f : c.Elem) : tryFromU64Ntt (enc c .ntt vt' f).toU64 c vt = some (.ok (enc c .ntt vt f)) := by
  obtain ⟨h1, h2⟩ := coeffs_shape (r := .ntt) (vt := vt') h f
  unfold tryFromU64Ntt toU64
  rw [← h1, fromShapeVec_flatten _ h2]
  rfl

theorem tryFromU64NttShoup_rows (h : c.WF b n) (f : c.Elem) :
    tryFromU64NttShoup (enc c .nttShoup vt' f).toU64 c vt = some (.ok (enc c .nttShoup vt f)) := by
  obtain ⟨h1, h2⟩ := coeffs_shape (r := .nttShoup) (vt := vt') h f
  unfold tryFromU64NttShoup toU64
  rw [← h1, fromShapeVec_flatten _ h2]
  dsimp only
  rw [computeShoup_rows h f (r := .nttShoup) _ rfl rfl]
  rfl

theorem tryFromI64_eq (h : c.WF b n) {v : List Int} (hv : v.length ≤ c.degree) (h64 : ∀ x ∈ v, -(2 ^ 63) ≤ x ∧ x < 2 ^ 63) :
    tryFromI64 v c vt = some (.ok (enc c .powerBasis vt (ofInts c v))) := by
  have := h.neZero
  unfold tryFromI64
  rw [if_pos hv]
  simp only [Poly.zero]
  rw [zeroRows_eq h, h.level.q, zipRows_map (k := fun op => encRow .powerBasis (ofInts c v) op)]
  · rfl
  intro op hop
  obtain ⟨ω, ωi, hw⟩ := h.level.ops op hop
  have : NeZero op.p.p := ⟨hw.prime.ne_zero⟩
  have e1 : op.p.reduceVecI64 v = some (v.map fun x : Int => (x % (op.p.p : Int)).toNat) :=
    mapM_eq_some_map fun x hx => Modulus.reduceI64_eq hw.modulus (h64 x hx).1 (h64 x hx).2
  have e2 : op.p.reduceVecI64Vt v = some (v.map fun x : Int => (x % (op.p.p : Int)).toNat) :=
    mapM_eq_some_map fun x hx => Modulus.reduceI64Vt_eq hw.modulus (h64 x hx).1 (h64 x hx).2
  simp only [e1, e2, ite_self, Option.bind_eq_bind, Option.bind_some]
  rw [copyPrefix_eq (by rw [List.length_map]; exact hv), show encRow .powerBasis (ofInts c v) op = pbRow (ofInts c v) op.p.p from rfl]
  congr 1
  unfold ofInts
  rw [pbRow_ofFn (h.dvd hop)]
  refine tab_congr fun j _ => ?_
  rw [map_intCast, List.getD_eq_getElem?_getD, List.getElem?_map, List.getD_eq_getElem?_getD]
  have hpos : (0 : Int) < op.p.p := by have := hw.modulus.pos; omega
  rcases v[j]? with _ | y
  · simp
  · simp only [Option.map_some, Option.getD_some]
    have h1 := Int.emod_nonneg y hpos.ne'
    have h2 := Int.emod_lt_of_pos y hpos
    refine val_of_lt (by omega) ?_
    have : (((y % op.p.p).toNat : Int) : ZMod op.p.p) = ((y % op.p.p : Int) : ZMod op.p.p) := by rw [Int.toNat_of_nonneg h1]
    rw [Int.cast_natCast] at this
    rw [this, ZMod.intCast_mod]

theorem tryFromI64_long {v : List Int} (hv : ¬ v.length ≤ c.degree) :
    tryFromI64 v c vt = some (.error (.tooManyCoefficients v.length c.degree)) := by
  unfold tryFromI64
  rw [if_neg hv]

theorem tryFromBigUint_eq (h : c.WF b n) {v : List Nat} (hv : v.length ≤ c.degree) :
    tryFromBigUint v c vt = some (.ok (enc c .powerBasis vt (ofNats c v))) := by
  have := h.neZero
  unfold tryFromBigUint
  rw [if_neg (by omega)]
  have hql : c.q.length = c.ops.length := by rw [h.level.q, List.length_map]
  have e1 : v.mapM c.rns.project = some (v.map fun x => c.ops.map fun op => x % op.p.p) := by
    refine mapM_eq_some_map fun x _ => ?_
    rw [RnsContext.project_eq h.level.rns, h.level.rns_moduli, h.level.moduli, List.map_map]; rfl
  have e2 : assignColumns c.q.length c.degree (v.map fun x => c.ops.map fun op => x % op.p.p) =
      some (c.ops.map fun op => encRow .powerBasis (ofNats c v) op) := by
    unfold assignColumns
    rw [check_eq]
    · simp only [Option.bind_eq_bind, Option.bind_some]
      have hto : (c.ops.map fun op => encRow .powerBasis (ofNats c v) op) = (List.range c.q.length).map fun i =>
          tab c.degree fun j => v.getD j 0 % (c.moduli.getD i 0) := by
        apply List.ext_getElem
        · simp [hql]
        · intro i h1 h2
          rw [List.length_map] at h1
          simp only [List.getElem_map, List.getElem_range]
          rw [show encRow .powerBasis (ofNats c v) c.ops[i] = pbRow (ofNats c v) (c.ops[i]).p.p from rfl, pbRow_ofNats h (List.getElem_mem h1)]
          refine tab_congr fun j _ => ?_
          rw [h.level.moduli]
          simp [List.getD_eq_getElem?_getD, h1]
      rw [hto]
      refine mapM_eq_some_map fun i hi => ?_
      have hi' : i < c.ops.length := by rw [← hql]; exact List.mem_range.1 hi
      have e3 : (v.map fun x => c.ops.map fun op => x % op.p.p).mapM (fun l => l[i]?) = some (v.map fun x => x % (c.ops[i]).p.p) := by
        rw [List.mapM_map]
        refine mapM_eq_some_map fun x _ => ?_
        simp [hi']
      rw [e3, Option.bind_some, copyPrefix_eq (by rw [List.length_map]; exact hv)]
      congr 1
      refine tab_congr fun j _ => ?_
      have e4 : c.moduli.getD i 0 = (c.ops[i]).p.p := by rw [h.level.moduli]; simp [List.getD_eq_getElem?_getD, hi']
      rw [e4, List.getD_eq_getElem?_getD, List.getElem?_map, List.getD_eq_getElem?_getD]
      rcases v[j]? with _ | y <;> simp
    · intro l hl
      obtain ⟨x, -, rfl⟩ := List.mem_map.1 hl
      rw [List.length_map, hql]
  rw [e1, Option.bind_eq_bind, Option.bind_some, e2]
  rfl

theorem tryFromBigUint_long {v : List Nat} (hv : ¬ v.length ≤ c.degree) :
    tryFromBigUint v c vt = some (.error (.tooManyCoefficients v.length c.degree)) := by
  unfold tryFromBigUint
  rw [if_pos (by omega)]

/-- Lazy constants: rows of representatives of the transform. -/
theorem constantNttLazyVt_eq (h : c.WF b n) {v : List Nat} (hv : v.length = c.degree) (h64 : ∀ x ∈ v, x < 2 ^ 64) :
    ∃ rows : NttOperator → List Nat, constantNttLazyVt v c = some { ctx := c, hasLazy := true, vt := true, coeffs := c.ops.map rows, shoup := none } ∧
      ∀ op ∈ c.ops, LazyRow (ofNats c v) op (rows op) := by
  classical
  have := h.neZero
  have hex : ∀ op : NttOperator, ∃ row, op ∈ c.ops →
      ((do let l ← op.p.lazyReduceVec v; op.forwardVtLazy l) = some row ∧ LazyRow (ofNats c v) op row) := by
    intro op
    by_cases hop : op ∈ c.ops
    · obtain ⟨ω, ωi, hw⟩ := h.level.ops op hop
      obtain ⟨l, e1, e2⟩ := Modulus.lazyReduceVec_eq hw.modulus h64
      have hll := e2.length_eq
      have hl4 : ∀ x ∈ l, x < 4 * op.p.p := by
        intro x hx
        obtain ⟨i, hi, rfl⟩ := List.getElem_of_mem hx
        have := (e2.get (by omega) hi).1
        simp only [List.get_eq_getElem] at this
        omega
      obtain ⟨g, e3, e4⟩ := forwardVtLazy_eq hw (a := l) (by rw [← hll, hv, h.level.degree, hw.size]) hl4
      refine ⟨_, fun _ => ⟨by rw [e1]; exact e3, ?_, ?_⟩⟩
      · intro x hx
        obtain ⟨i, hi, rfl⟩ := mem_tab.1 hx
        have := (e4 i hi).1
        have := hw.modulus.lt
        omega
      · have hget : ∀ t, ((l.getD t 0 : Nat) : ZMod op.p.p) = ((pbRow (ofNats c v) op.p.p).getD t 0 : Nat) := by
          intro t
          rw [pbRow_ofNats h hop]
          rcases Nat.lt_or_ge t c.degree with ht | ht
          · rw [tab_getD _ ht, ZMod.natCast_mod]
            have := (e2.get (i := t) (by omega) (by omega)).2
            simp only [List.get_eq_getElem] at this
            rw [List.getD_eq_getElem?_getD, List.getD_eq_getElem?_getD, List.getElem?_eq_getElem (by omega), List.getElem?_eq_getElem (by omega)]
            simp only [Option.getD_some]
            exact (ZMod.natCast_eq_natCast_iff _ _ _).2 this
          · rw [List.getD_eq_getElem?_getD, List.getD_eq_getElem?_getD, List.getElem?_eq_none (by omega), List.getElem?_eq_none (by rw [length_tab]; omega)]
        have hlt := pbRow_lt (q := op.p.p) hw.modulus.pos (ofNats c v)
        rw [tab_map, nttRow, forward_eq hw (by rw [length_pbRow, h.level.degree, hw.size]) (fun x hx => by have := hlt x hx; omega)]
        change _ = fwdVal _ _ _ _
        rw [fwdVal]
        refine tab_congr fun x hx => val_of_lt (Nat.mod_lt _ hw.modulus.pos) ?_
        rw [ZMod.natCast_mod, (e4 x hx).2]
        congr 1
        funext t; exact hget t
    · exact ⟨[], fun hh => absurd hh hop⟩
  choose rows hrows using hex
  refine ⟨rows, ?_, fun op hop => (hrows op hop).2⟩
  unfold constantNttLazyVt
  rw [zeroRows_eq h, h.level.q]
  have hz : (c.ops.map (·.p)).zip c.ops = c.ops.map fun op => (op.p, op) := by
    conv_lhs => enter [2]; rw [← List.map_id c.ops]
    rw [zip_map_same]; rfl
  rw [hz, zipRows_map (k := rows)]
  · rfl
  intro op hop
  rw [check_eq (by rw [List.length_replicate, hv])]
  exact (hrows op hop).1

/-- Rows that a sampler for the context may return: one per modulus, as many entries as the degree, reduced. -/
structure SampleRows (c : Context) (rows : List (List Nat)) : Prop where
  nrows : rows.length = c.moduli.length
  columns : ∀ row ∈ rows, row.length = c.degree
  reduced : ∀ (i q : Nat) (row : List Nat), c.moduli[i]? = some q → rows[i]? = some row → ∀ x ∈ row, x < q

theorem random_enc (h : c.WF b n) (r : Rep) {rows : List (List Nat)} (hr : SampleRows c rows) :
    ∃ f : c.Elem, random r c rows = some (enc c r false f) ∧ (enc c r false f).coeffs = rows := by
  let p0 : Poly r := { ctx := c, hasLazy := false, vt := false, coeffs := rows
                       shoup := if r = .nttShoup then some (List.zipWith (fun row q => row.map fun x => x * 2 ^ 64 / q) rows c.moduli) else none }
  have hv : p0.Valid := ⟨rfl, hr.nrows, hr.columns, hr.reduced, rfl⟩
  obtain ⟨f, hf⟩ := exists_enc h (p := p0) rfl hv
  have hco : (enc c r false f).coeffs = rows := by rw [show enc c r false f = p0 from hf.symm]
  refine ⟨f, ?_, hco⟩
  have hql : c.q.length = c.moduli.length := by rw [h.level.q, h.level.moduli, List.length_map, List.length_map]
  have hz : ∀ (k : Nat) (rows : List (List Nat)), rows.length = k → (∀ row ∈ rows, row.length = c.degree) →
      zipRows (fun w v => do check (v.length = w.length); return v) (zeroRows k c.degree) rows = some rows := by
    intro k
    induction k with
    | zero => intro rows h0 _; rw [List.length_eq_zero_iff.1 h0]; rfl
    | succ k ih =>
      intro rows hl hcol
      cases rows with
      | nil => cases hl
      | cons a rows =>
        change zipRows _ (List.replicate c.degree 0 :: zeroRows k c.degree) (a :: rows) = _
        unfold zipRows
        rw [check_eq (by rw [List.length_replicate]; exact hcol a (by simp)), ih rows (by simpa using hl) fun row hrow => hcol row (by simp [hrow])]
        rfl
  unfold random
  simp only [Poly.zero]
  rw [hql, hz _ rows hr.nrows hr.columns]
  simp only [Option.bind_eq_bind, Option.bind_some]
  by_cases hs : r = .nttShoup
  · subst hs
    rw [if_pos rfl, computeShoup_rows (r := .nttShoup) h f _ rfl (by exact hco.symm)]
    simp only [enc, if_true, Option.some.injEq, Poly.mk.injEq, true_and]
    exact ⟨by rw [← hco]; rfl, trivial⟩
  · rw [if_neg hs, if_neg hs]
    simp only [enc, if_neg hs, Option.pure_def, Option.some.injEq, Poly.mk.injEq, true_and]
    exact ⟨by rw [← hco]; rfl, trivial⟩

end Poly
end Fhe
