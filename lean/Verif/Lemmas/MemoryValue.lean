import Verif.Lemmas.MemoryMade
import Verif.Lemmas.MemoryAgree
/-! Unchecked accesses: the scaling of a polynomial writes the polynomial that the code on vectors computes. -/
namespace Fhe.Memory
open Release
open Spec (RightShape MadeContext Made)

variable {b : Build} {n : Nat} {r : Rep}

theorem rowsVt_from {f : NttOperator → List Nat → Nat → Outcome (List Nat)} {g : NttOperator → List Nat → Timed (List Nat)} {d : Nat}
    (ops : List NttOperator) (hT : ∀ op ∈ ops, Transforms f g op ∧ op.size = d) (done rows : List (List Nat)) (hdone : ∀ r ∈ done, r.length = d) (hrows : ∀ r ∈ rows, r.length = d) :
    ∃ out, (zipLoop (fun v op => g op v) rows ops).result = some out ∧ out.length = rows.length ∧ (∀ r ∈ out, r.length = d) ∧
      rowsVt f ops done.length (Array2.standard (done.length + rows.length) d (done.flatten ++ rows.flatten)) =
        .returned (Array2.standard (done.length + rows.length) d (done.flatten ++ out.flatten)) := by
  refine rows_standard (loop := rowsVt f) (g := g) (P := Transforms f g) (fun _ _ => rfl) ?_ ?_ ops
    (fun op hop => ⟨(hT op hop).1, (hT op hop).1.keeps, (hT op hop).2⟩) done rows hdone hrows _ rfl
  · intro op ops i a hi; unfold rowsVt; rw [if_neg hi]; rfl
  · intro op ops i a b hP hA hc hi hs hb hbl
    have := hP a.mem (i * d)
    have hle := row_le hA hi
    rw [hc] at hle
    rw [if_pos (by omega), hs] at this
    obtain ⟨b', e1, -, e3⟩ := this
    obtain rfl : b' = b := Option.some.inj (e1.symm.trans hb)
    rw [rowsVt, if_pos hi, hA.pos, Nat.add_zero, hc, e3, ret_bind]

theorem rowsCt_from {g : NttOperator → List Nat → Timed (List Nat)} {d : Nat}
    (ops : List NttOperator) (hT : ∀ op ∈ ops, Keeps g op ∧ op.size = d) (done rows : List (List Nat)) (hdone : ∀ r ∈ done, r.length = d) (hrows : ∀ r ∈ rows, r.length = d) :
    ∃ out, (zipLoop (fun v op => g op v) rows ops).result = some out ∧ out.length = rows.length ∧ (∀ r ∈ out, r.length = d) ∧
      rowsCt g ops done.length (Array2.standard (done.length + rows.length) d (done.flatten ++ rows.flatten)) =
        .returned (Array2.standard (done.length + rows.length) d (done.flatten ++ out.flatten)) := by
  refine rows_standard (loop := rowsCt g) (g := g) (P := fun _ => True) (fun _ _ => rfl) ?_ ?_ ops
    (fun op hop => ⟨trivial, hT op hop⟩) done rows hdone hrows _ rfl
  · intro op ops i a hi; unfold rowsCt; rw [if_neg hi]; rfl
  · intro op ops i a b _ hA hc hi hs hb hbl
    rw [rowsCt, if_pos hi, if_pos (Or.inr hA.colStride)]
    simp only [hA.pos, Nat.add_zero, hc]
    rw [safe_some hb, ret_bind]

theorem flatten_get {d : Nat} (rows : List (List Nat)) (h : ∀ r ∈ rows, r.length = d) (i j : Nat) (hj : j < d) :
    rows.flatten[i * d + j]? = rows[i]?.bind (·[j]?) := by
  induction rows generalizing i with
  | nil => simp
  | cons x rows ih =>
    have hx := h x (by simp)
    rw [List.flatten_cons]
    cases i with
    | zero => rw [Nat.zero_mul, Nat.zero_add, List.getElem?_append_left (by omega)]; simp
    | succ i =>
      rw [List.getElem?_append_right (by rw [hx, Nat.succ_mul]; omega), hx, show (i + 1) * d + j - d = i * d + j by rw [Nat.succ_mul]; omega,
        ih (fun r hr => h r (by simp [hr]))]
      simp

theorem index_inj {d i j i' j' : Nat} (hj : j < d) (hj' : j' < d) (e : i * d + j = i' * d + j') : i = i' ∧ j = j' := by
  have e1 : (i * d + j) / d = (i' * d + j') / d := by rw [e]
  rw [Nat.add_comm, Nat.add_mul_div_right _ _ (by omega), Nat.div_eq_of_lt hj, Nat.add_comm (i' * _), Nat.add_mul_div_right _ _ (by omega), Nat.div_eq_of_lt hj'] at e1
  have e1 : i = i' := by omega
  subst e1
  exact ⟨rfl, by omega⟩

theorem column_flatten {d : Nat} (rows : List (List Nat)) (h : ∀ r ∈ rows, r.length = d) {j : Nat} (hj : j < d) :
    column (Array2.standard rows.length d rows.flatten) j = .returned (rows.map fun row => row.getD j 0) := by
  have : column (Array2.standard rows.length d rows.flatten) j = .returned ((List.range' 0 rows.length).map fun i => (rows.getD i []).getD j 0) := by
    refine collect_ok _ _ fun i _ hi => ?_
    have hi : i < rows.length := by rw [Nat.zero_add] at hi; exact hi
    have hd := h rows[i] (List.getElem_mem hi)
    show checked rows.flatten (i * d + j) = _
    unfold checked
    rw [flatten_get rows h i j hj, List.getElem?_eq_getElem hi]
    simp only [Option.bind_some]
    rw [List.getElem?_eq_getElem (by omega)]
    simp only [List.getD_eq_getElem _ _ hi]
    rw [List.getD_eq_getElem _ _ (by omega)]
  rw [this]
  congr 1
  refine List.ext_getElem (by simp) fun i h1 h2 => ?_
  simp only [List.length_map] at h2
  simp [h2]

theorem setColumn_get (l : List Nat) (a : Array2) (first j : Nat) (hj : j < a.cols) (hin : (first + l.length) * a.cols ≤ a.mem.length) :
    ∃ mem, setColumn a first j l = { a with mem } ∧ mem.length = a.mem.length ∧ (∀ i < l.length, mem[(first + i) * a.cols + j]? = l[i]?) ∧
      ∀ k, (∀ i < l.length, k ≠ (first + i) * a.cols + j) → mem[k]? = a.mem[k]? := by
  induction l generalizing a first with
  | nil => exact ⟨a.mem, rfl, rfl, by simp, fun _ _ => rfl⟩
  | cons x l ih =>
    unfold setColumn
    rw [List.length_cons] at hin
    obtain ⟨mem, e1, e2, e3, e4⟩ := ih { a with mem := a.mem.set (first * a.cols + j) x } (first + 1) hj (by simp only [List.length_set]; rw [show first + 1 + l.length = first + (l.length + 1) by omega]; exact hin)
    have hlt : first * a.cols + j < a.mem.length := by
      have : (first + 1) * a.cols ≤ (first + (l.length + 1)) * a.cols := Nat.mul_le_mul_right _ (by omega)
      rw [Nat.succ_mul] at this; omega
    refine ⟨mem, e1, by rw [e2]; simp, fun i hi => ?_, fun k hk => ?_⟩
    · cases i with
      | zero =>
        rw [Nat.add_zero, e4 _ fun i _ e => ?_]
        · show (a.mem.set (first * a.cols + j) x)[first * a.cols + j]? = _
          rw [List.getElem?_set_self hlt]; rfl
        · have := (index_inj hj hj e).1; omega
      | succ i =>
        have := e3 i (by simpa using hi)
        rw [show first + (i + 1) = first + 1 + i by omega]
        simpa using this
    · rw [e4 k fun i hi => ?_]
      · show (a.mem.set (first * a.cols + j) x)[k]? = _
        exact List.getElem?_set_ne fun e => hk 0 (by simp) (by rw [← e, Nat.add_zero])
      · have := hk (i + 1) (by simpa using hi)
        rwa [show first + 1 + i = first + (i + 1) by omega]

theorem scaleColumns_get {s : Scaler} {d K : Nat} {rows : List (List Nat)} (hrows : ∀ r ∈ rows, r.length = d) (g : Nat → List Nat)
    (hg : ∀ j < d, scale s.scaler (rows.map fun row => row.getD j 0) (s.dst.q.length - s.ncommon) s.ncommon = .returned (g j) ∧ (g j).length = K)
    (left j : Nat) (hj : j + left = d) (out : Array2) (hc : out.cols = d) (hin : (s.ncommon + K) * d ≤ out.mem.length) :
    ∃ mem, scaleColumns s (Array2.standard rows.length d rows.flatten) left j out = .returned { out with mem } ∧ mem.length = out.mem.length ∧
      (∀ i < K, ∀ j', j ≤ j' → j' < d → mem[(s.ncommon + i) * d + j']? = (g j')[i]?) ∧
      (∀ k < s.ncommon * d, mem[k]? = out.mem[k]?) ∧ ∀ i < K, ∀ j' < j, mem[(s.ncommon + i) * d + j']? = out.mem[(s.ncommon + i) * d + j']? := by
  induction left generalizing j out with
  | zero => exact ⟨out.mem, rfl, rfl, fun i _ j' h1 h2 => by omega, fun _ _ => rfl, fun _ _ _ _ => rfl⟩
  | succ left ih =>
    have hjd : j < d := by omega
    obtain ⟨g1, g2⟩ := hg j hjd
    obtain ⟨m1, e1, e2, e3, e4⟩ := setColumn_get (g j) out s.ncommon j (by rw [hc]; exact hjd) (by rw [g2, hc]; exact hin)
    rw [hc] at e3 e4
    obtain ⟨mem, k1, k2, k3, k4, k5⟩ := ih (j + 1) (by omega) { out with mem := m1 } hc (by show _ ≤ m1.length; omega)
    refine ⟨mem, ?_, k2.trans e2, fun i hi j' h1 h2 => ?_, fun k hk => ?_, fun i hi j' hj' => ?_⟩
    · unfold scaleColumns
      rw [column_flatten rows hrows hjd, ret_bind, g1, ret_bind, e1, k1]
    · rcases Nat.eq_or_lt_of_le h1 with rfl | hlt
      · rw [k5 i hi j (by omega)]
        exact e3 i (by omega)
      · exact k3 i hi j' hlt h2
    · rw [k4 k hk]
      refine e4 k fun i _ e => ?_
      have : s.ncommon * d ≤ (s.ncommon + i) * d := Nat.mul_le_mul_right _ (by omega)
      omega
    · rw [k5 i hi j' (by omega)]
      refine e4 _ fun i' _ e => ?_
      have := (index_inj (by omega) hjd e).2
      omega

/-- What the loop over the columns leaves in memory. -/
theorem scaleColumns_rows {s : Scaler} {d K : Nat} {rows done : List (List Nat)} (hrows : ∀ r ∈ rows, r.length = d) (hdone : ∀ r ∈ done, r.length = d) (hn : done.length = s.ncommon)
    (g : Nat → List Nat) (hg : ∀ j < d, scale s.scaler (rows.map fun row => row.getD j 0) (s.dst.q.length - s.ncommon) s.ncommon = .returned (g j) ∧ (g j).length = K) {N : Nat} {z : List Nat} (hz : z.length = K * d) :
    scaleColumns s (Array2.standard rows.length d rows.flatten) d 0 (Array2.standard N d (done.flatten ++ z)) =
      .returned (Array2.standard N d (done.flatten ++ ((List.range K).map fun i => (List.range d).map fun j => (g j).getD i 0).flatten)) := by
  have hfd := flatten_length hdone
  obtain ⟨mem, e1, e2, e3, e4, -⟩ := scaleColumns_get hrows g hg d 0 (by omega) (Array2.standard N d (done.flatten ++ z)) rfl
    (by show _ ≤ (done.flatten ++ z).length; rw [List.length_append, hfd, hz, hn, Nat.add_mul])
  rw [e1]
  replace e2 : mem.length = done.length * d + K * d := by rw [e2]; show (done.flatten ++ z).length = _; rw [List.length_append, hfd, hz]
  have hnew : ∀ r ∈ (List.range K).map (fun i => (List.range d).map fun j => (g j).getD i 0), r.length = d := by
    intro r hr
    obtain ⟨i, -, rfl⟩ := List.mem_map.1 hr
    simp
  suffices h : mem = done.flatten ++ ((List.range K).map fun i => (List.range d).map fun j => (g j).getD i 0).flatten by rw [h]; rfl
  refine List.ext_getElem? fun k => ?_
  by_cases h1 : k < s.ncommon * d
  · rw [e4 k h1]
    show (done.flatten ++ z)[k]? = _
    rw [List.getElem?_append_left (by rw [hfd, hn]; exact h1), List.getElem?_append_left (by rw [hfd, hn]; exact h1)]
  rw [List.getElem?_append_right (by rw [hfd, hn]; omega), hfd, hn]
  by_cases h2 : k < mem.length
  · have hd0 : 0 < d := by
      rcases Nat.eq_zero_or_pos d with rfl | h
      · simp only [Nat.mul_zero, Nat.add_zero] at e2; omega
      · exact h
    obtain ⟨i, j, hj, hk⟩ : ∃ i j, j < d ∧ k - s.ncommon * d = i * d + j := ⟨(k - s.ncommon * d) / d, (k - s.ncommon * d) % d, Nat.mod_lt _ hd0, (Nat.div_add_mod' _ _).symm⟩
    have hi : i < K := by
      by_contra hc
      have : K * d ≤ i * d := Nat.mul_le_mul_right _ (by omega)
      rw [hn] at e2
      omega
    have hk' : k = (s.ncommon + i) * d + j := by rw [Nat.add_mul]; omega
    rw [hk, flatten_get _ hnew i j hj, hk', e3 i hi j (by omega) hj]
    have := (hg j hj).2
    simp [hi, hj, this]
  · rw [List.getElem?_eq_none (by omega), List.getElem?_eq_none]
    rw [flatten_length hnew, List.length_map, List.length_range]
    rw [hn] at e2
    omega

theorem sourceRows_matrix {p : Poly r} (hw : p.ctx.WF b n) (hp : RightShape p) :
    ∃ rows, (sourceRows p).result = some rows ∧ rows.length = p.ctx.q.length ∧ (∀ r ∈ rows, r.length = p.ctx.degree) ∧
      (if r = .powerBasis then pure (matrix p) else nttBackward p.ctx.ops p.vt (matrix p) : Outcome Array2) = .returned (Array2.standard rows.length p.ctx.degree rows.flatten) := by
  unfold sourceRows
  by_cases hr : r = .powerBasis
  · rw [if_pos hr, if_pos hr]
    exact ⟨p.coeffs, rfl, hp.1, hp.2, rfl⟩
  · rw [if_neg hr, if_neg hr]
    unfold nttBackward
    rw [bind_result_eq (show (branchOn (p.vt = true)).result = some _ from rfl)]
    cases hv : p.vt
    · obtain ⟨out, e1, e2, e3, e4⟩ := rowsCt_standard p.ctx.ops (backward_all_ct hw) p.coeffs hp.2
      refine ⟨out, ?_, e2.trans hp.1, e3, ?_⟩
      · rw [if_neg (by simp), e1]
      · rw [if_neg (by simp)]; unfold matrix; rw [e4, e2]
    · obtain ⟨out, e1, e2, e3, e4⟩ := rowsVt_standard p.ctx.ops (backward_all hw) p.coeffs hp.2
      refine ⟨out, ?_, e2.trans hp.1, e3, ?_⟩
      · rw [if_pos (by simp), e1]
      · rw [if_pos rfl]; unfold matrix; rw [e4, e2]

theorem polyScale_matrix {dst : Context} {m : Nat} {p : Poly r} (hs : p.ctx.WF b n) (hd : dst.WF b m) {f : ScalingFactor} {s : Scaler} (hn : Scaler.new p.ctx dst f = some (.ok s)) (hp : RightShape p) :
    ∃ x, (Release.scale s p).result = some (.ok x) ∧ RightShape x ∧ x.ctx = dst ∧ x.vt = p.vt ∧ polyScale r s p.vt (matrix p) = .returned (matrix x) := by
  obtain ⟨e1, rfl, e3, e4, e5, e6⟩ := scaler_inv hn
  have hT := tables_of_new hs.level.rns hd.level.rns e6
  rw [hs.level.rns_moduli, hd.level.rns_moduli, moduli_length hs, moduli_length hd] at hT
  have ht : (p.coeffs.take s.ncommon).length = s.ncommon := by rw [List.length_take, hp.1]; omega
  have htr : ∀ x ∈ p.coeffs.take s.ncommon, x.length = p.ctx.degree := fun x hx => hp.2 x (List.mem_of_mem_take hx)
  have hinit : scaleInit s (matrix p) = Array2.standard s.dst.q.length p.ctx.degree ((p.coeffs.take s.ncommon).flatten ++ List.replicate ((s.dst.q.length - s.ncommon) * p.ctx.degree) 0) := by
    unfold scaleInit
    rw [← e3]
    have : (matrix p).mem.take (s.ncommon * p.ctx.degree) = (p.coeffs.take s.ncommon).flatten := by
      show p.coeffs.flatten.take _ = _
      conv_lhs => rw [← List.take_append_drop s.ncommon p.coeffs, List.flatten_append]
      rw [List.take_left']
      rw [flatten_length htr, ht]
    rw [this]
  have hcond : ¬ p.ctx ≠ s.src := by rw [not_not, e1]
  unfold Release.scale polyScale
  rw [if_neg hcond, bind_result_eq (show (branchOn (s.ncommon < s.dst.q.length)).result = some _ from rfl)]
  by_cases hlt : s.ncommon < s.dst.q.length
  swap
  · rw [if_neg (by simpa using hlt), if_neg hlt]
    have h0 : s.dst.q.length - s.ncommon = 0 := by omega
    refine ⟨_, rfl, ⟨by show (p.coeffs.take s.ncommon).length = s.dst.q.length; omega, fun x hx => (htr x hx).trans e3⟩, rfl, rfl, ?_⟩
    rw [hinit, pure_ret, h0]
    unfold matrix
    simp only [Nat.zero_mul, List.replicate_zero, List.append_nil, ht, e3]
    congr 2
    omega
  rw [if_pos (by simpa using hlt), if_pos hlt]
  obtain ⟨rows, k1, k2, k3, k4⟩ := sourceRows_matrix hs hp
  rw [bind_result_eq k1]
  have hcols : (mapLoop (Release.column rows) (List.range p.ctx.degree)).result = some ((List.range p.ctx.degree).map fun j => rows.map fun row => row.getD j 0) := by
    refine mapLoop_map fun j hj => mapLoop_map fun row hrow => ?_
    have hj : j < row.length := by rw [k3 row hrow]; simpa using hj
    show row[j]? = _
    rw [List.getElem?_eq_getElem hj, List.getD_eq_getElem _ _ hj]
  rw [bind_result_eq hcols]
  obtain ⟨g, hg⟩ : ∃ g : List Nat → List Nat, ∀ c : List Nat, c.length = p.ctx.q.length → scale s.scaler c (s.dst.q.length - s.ncommon) s.ncommon = .returned (g c) ∧
      (g c).length = s.dst.q.length - s.ncommon ∧ (rnsScale s.scaler c (s.dst.q.length - s.ncommon) s.ncommon).result = some (g c) := by
    refine ⟨fun c => ((rnsScale s.scaler c (s.dst.q.length - s.ncommon) s.ncommon).result).getD [], fun c hc => ?_⟩
    have hsc := scale_eq hT c (s.dst.q.length - s.ncommon) s.ncommon
    rw [if_pos (Or.inr ⟨by omega, by omega⟩)] at hsc
    obtain ⟨out, n1, n2, n3⟩ := hsc
    simp only [n3, Option.getD_some]
    exact ⟨n1, n2, trivial⟩
  have hnew := mapLoop_map (f := fun c => rnsScale s.scaler c (s.dst.q.length - s.ncommon) s.ncommon) (g := g)
    (l := (List.range p.ctx.degree).map fun j => rows.map fun row => row.getD j 0) (fun c hc => (hg c (by obtain ⟨j, -, rfl⟩ := List.mem_map.1 hc; simp [k2])).2.2)
  rw [bind_result_eq hnew, List.map_map]
  have hgj : ∀ j, scale s.scaler (rows.map fun row => row.getD j 0) (s.dst.q.length - s.ncommon) s.ncommon = .returned (g (rows.map fun row => row.getD j 0)) ∧
      (g (rows.map fun row => row.getD j 0)).length = s.dst.q.length - s.ncommon := fun j => ⟨(hg _ (by simp [k2])).1, (hg _ (by simp [k2])).2.1⟩
  have hrows2 : (mapLoop (Release.column ((List.range p.ctx.degree).map (g ∘ fun j => rows.map fun row => row.getD j 0))) (List.range (s.dst.q.length - s.ncommon))).result =
      some ((List.range (s.dst.q.length - s.ncommon)).map fun i => (List.range p.ctx.degree).map fun j => (g (rows.map fun row => row.getD j 0)).getD i 0) := by
    refine mapLoop_map fun i hi => ?_
    have := mapLoop_map (f := fun row : List Nat => fetch row i) (g := fun row => row.getD i 0) (l := (List.range p.ctx.degree).map (g ∘ fun j => rows.map fun row => row.getD j 0)) (fun row hrow => by
      obtain ⟨j, -, rfl⟩ := List.mem_map.1 hrow
      have hi : i < ((g ∘ fun j => rows.map fun row => row.getD j 0) j).length := by
        show i < (g _).length
        rw [(hgj j).2]; simpa using hi
      show (_ : List Nat)[i]? = _
      rw [List.getElem?_eq_getElem hi, List.getD_eq_getElem _ _ hi])
    rw [List.map_map] at this
    exact this
  rw [bind_result_eq hrows2]
  have hmem := scaleColumns_rows (s := s) (rows := rows) (done := p.coeffs.take s.ncommon) k3 htr ht (fun j => g (rows.map fun row => row.getD j 0)) (fun j _ => hgj j)
    (N := s.dst.q.length) (z := List.replicate ((s.dst.q.length - s.ncommon) * p.ctx.degree) 0) (by simp)
  set newRows := (List.range (s.dst.q.length - s.ncommon)).map fun i => (List.range p.ctx.degree).map fun j => (g (rows.map fun row => row.getD j 0)).getD i 0 with hN
  have hnl : newRows.length = s.dst.q.length - s.ncommon := by rw [hN]; simp
  have hnr : ∀ x ∈ newRows, x.length = p.ctx.degree := by
    intro x hx
    rw [hN] at hx
    obtain ⟨i, -, rfl⟩ := List.mem_map.1 hx
    simp
  have hlen : s.dst.q.length = (p.coeffs.take s.ncommon).length + newRows.length := by omega
  have hfin : ∀ out : List (List Nat), out.length = newRows.length → (∀ x ∈ out, x.length = p.ctx.degree) →
      let x : Poly r := { ctx := s.dst, vt := p.vt, coeffs := p.coeffs.take s.ncommon ++ out, shoup := none, hasLazy := false }
      RightShape x ∧ matrix x = Array2.standard s.dst.q.length p.ctx.degree ((p.coeffs.take s.ncommon).flatten ++ out.flatten) := by
    intro out h1 h2
    refine ⟨⟨?_, fun y hy => ?_⟩, ?_⟩
    · show (p.coeffs.take s.ncommon ++ out).length = s.dst.q.length
      rw [List.length_append]; omega
    · rcases List.mem_append.1 hy with hy | hy
      · exact (htr y hy).trans e3
      · exact (h2 y hy).trans e3
    · unfold matrix
      simp only [List.flatten_append, List.length_append, h1, ← hlen, e3]
  by_cases hr : r = .powerBasis
  · rw [if_pos hr] at k4
    simp only [if_pos hr]
    rw [k4, ret_bind, hinit, show s.src.degree = p.ctx.degree by rw [e1], hmem, ret_bind, pure_ret]
    unfold targetRows
    rw [if_pos hr, bind_result_eq (show (pure newRows : Timed _).result = some newRows from rfl)]
    obtain ⟨f1, f2⟩ := hfin newRows rfl hnr
    exact ⟨_, rfl, f1, rfl, rfl, by rw [f2]⟩
  · rw [if_neg hr] at k4
    simp only [if_neg hr]
    rw [show s.src.ops = p.ctx.ops by rw [e1], k4, ret_bind, hinit, show s.src.degree = p.ctx.degree by rw [e1], hmem, ret_bind]
    unfold targetRows
    rw [if_neg hr]
    cases hv : p.vt
    · obtain ⟨out, j1, j2, j3, j4⟩ := rowsCt_from (s.dst.ops.drop s.ncommon) (fun op ho => by have := forward_all_ct hd op (List.mem_of_mem_drop ho); rwa [← e3] at this) (p.coeffs.take s.ncommon) newRows htr hnr
      obtain ⟨f1, f2⟩ := hfin out j2 j3
      rw [← hlen, ht] at j4
      refine ⟨_, ?_, f1, rfl, hv, ?_⟩
      · rw [bind_result_eq (show (branchOn (false = true) >>= fun b => if b = true then _ else _).result = some out from by
          rw [bind_result_eq (show (branchOn (false = true)).result = some _ from rfl)]; exact j1)]
        rw [← hv]; rfl
      · rw [if_neg (by simp), j4, f2]
    · obtain ⟨out, j1, j2, j3, j4⟩ := rowsVt_from (s.dst.ops.drop s.ncommon) (fun op ho => by have := forward_all hd op (List.mem_of_mem_drop ho); rwa [← e3] at this) (p.coeffs.take s.ncommon) newRows htr hnr
      obtain ⟨f1, f2⟩ := hfin out j2 j3
      rw [← hlen, ht] at j4
      refine ⟨_, ?_, f1, rfl, hv, ?_⟩
      · rw [bind_result_eq (show (branchOn (true = true) >>= fun b => if b = true then _ else _).result = some out from by
          rw [bind_result_eq (show (branchOn (true = true)).result = some _ from rfl)]; exact j1)]
        rw [← hv]; rfl
      · rw [if_pos rfl, j4, f2]

/-! ## Constants -/

theorem lazyConstantRows_gives {v : List Nat} {d : Nat} (hv : v.length = d) (l : List (Modulus × NttOperator))
    (hT : ∀ x ∈ l, Transforms forwardVtLazy Release.forwardVtLazy x.2 ∧ x.2.size = d) (done rest : List (List Nat)) (hdone : ∀ r ∈ done, r.length = d) (hrest : ∀ r ∈ rest, r.length = d)
    (N : Nat) (hN : N = done.length + rest.length) {out : List (List Nat)}
    (h : zipRows (fun row (qo : Modulus × NttOperator) => do
      check (row.length = v.length)
      qo.2.forwardVtLazy (← qo.1.lazyReduceVec v)) rest l = some out) :
    out.length = rest.length ∧ (∀ r ∈ out, r.length = d) ∧
      lazyConstantRows v l done.length (Array2.standard N d (done.flatten ++ rest.flatten)) = .returned (Array2.standard N d (done.flatten ++ out.flatten)) := by
  induction l generalizing done rest out with
  | nil =>
    have : out = rest := by cases rest <;> cases h <;> rfl
    subst this
    exact ⟨rfl, hrest, rfl⟩
  | cons x l ih =>
    obtain ⟨q, op⟩ := x
    rcases rest with _ | ⟨r, rest⟩
    · cases h
      refine ⟨rfl, by simp, ?_⟩
      unfold lazyConstantRows
      rw [if_neg (by simp [Array2.standard, hN])]; rfl
    · unfold zipRows at h
      obtain ⟨a, ha, h⟩ := Option.bind_eq_some_iff.1 h
      obtain ⟨as, has, h⟩ := Option.bind_eq_some_iff.1 h
      obtain rfl : a :: as = out := Option.some.inj h
      obtain ⟨-, -, ha⟩ := Option.bind_eq_some_iff.1 ha
      obtain ⟨w, hw, ha⟩ := Option.bind_eq_some_iff.1 ha
      have hw' := lazyReduceVec_agrees _ _ _ hw
      have ha' := forwardVtLazy_agrees _ _ _ ha
      have hwl : w.length = d := by
        obtain ⟨w2, e1, e2⟩ := lazyReduceVec_total q v
        rw [hw'] at e1; cases e1; omega
      have hr := hrest r (by simp)
      have hfd := flatten_length hdone
      obtain ⟨hX, hsz⟩ := hT (q, op) (by simp)
      have hput : putBack (done.flatten ++ (r :: rest).flatten) (done.length * d) w = done.flatten ++ (w ++ rest.flatten) := by
        rw [← hfd, List.flatten_cons, putBack_middle (by omega)]
      have hpl : (done.flatten ++ (w ++ rest.flatten)).length = done.length * d + d + rest.flatten.length := by
        simp only [List.length_append]; omega
      have hX := hX (done.flatten ++ (w ++ rest.flatten)) (done.length * d)
      simp only at hsz hX
      rw [if_pos (by omega)] at hX
      obtain ⟨y, y1, y2, y3⟩ := hX
      have hseg : ((done.flatten ++ (w ++ rest.flatten)).drop (done.length * d)).take op.size = w := by
        rw [← hfd, List.drop_left, List.take_left' (by omega)]
      rw [hseg, ha'] at y1
      cases y1
      have hal : a.length = d := by omega
      obtain ⟨i1, i2, i3⟩ := ih (fun x hx => hT x (by simp [hx])) (done ++ [a]) rest (by
        intro x hx
        rcases List.mem_append.1 hx with hx | hx
        · exact hdone x hx
        · rw [List.mem_singleton.1 hx, hal]) (fun x hx => hrest x (by simp [hx])) (by simp only [List.length_append, List.length_cons, List.length_nil] at hN ⊢; omega) has
      refine ⟨by simp [i1], ?_, ?_⟩
      · intro x hx
        rcases List.mem_cons.1 hx with rfl | hx
        · exact hal
        · exact i2 x hx
      · unfold lazyConstantRows
        have hR : RowMajor (Array2.standard N d (done.flatten ++ (r :: rest).flatten)) := by
          refine ⟨rfl, rfl, rfl, ?_⟩
          show N * d ≤ (done.flatten ++ (r :: rest).flatten).length
          rw [List.length_append, hfd, flatten_length hrest, ← Nat.add_mul, hN]
        rw [if_pos (show done.length < (Array2.standard N d (done.flatten ++ (r :: rest).flatten)).rows by show done.length < N; rw [hN, List.length_cons]; omega),
          if_neg (show ¬ v.length ≠ (Array2.standard N d (done.flatten ++ (r :: rest).flatten)).cols by rw [hv]; exact fun h => h rfl)]
        simp only [hR.pos, Nat.add_zero]
        rw [safe_some hw', ret_bind]
        show (forwardVtLazy op (putBack (done.flatten ++ (r :: rest).flatten) (done.length * d) w) (done.length * d) >>= fun mem => _) = _
        rw [hput, y3, ret_bind]
        have h8 : putBack (done.flatten ++ (w ++ rest.flatten)) (done.length * d) a = (done ++ [a]).flatten ++ rest.flatten := by
          rw [← hfd, putBack_middle (by omega)]; simp
        rw [h8]
        have h7 : (done ++ [a]).flatten ++ as.flatten = done.flatten ++ (a :: as).flatten := by simp
        rw [← h7]
        simp only [List.length_append, List.length_cons, List.length_nil] at i3
        exact i3

theorem lazyConstant_gives {c : Context} (h : c.WF b n) {v : List Nat} {x : Poly .ntt} (hx : Poly.constantNttLazyVt v c = some x) (hv : v.length = c.degree) :
    RightShape x ∧ x.ctx = c ∧ lazyConstant v c = .returned (matrix x) := by
  obtain ⟨out, ho, hx⟩ := Option.bind_eq_some_iff.1 hx
  obtain rfl := Option.some.inj hx
  have hz : ∀ r ∈ zeroRows c.q.length c.degree, r.length = c.degree := by
    intro r hr
    rw [zeroRows, List.mem_replicate] at hr
    rw [hr.2, List.length_replicate]
  have hzl : (zeroRows c.q.length c.degree).length = c.q.length := by simp [zeroRows]
  obtain ⟨e1, e2, e3⟩ := lazyConstantRows_gives hv (c.q.zip c.ops) (fun x hx => lazy_all h x.2 (List.of_mem_zip hx).2) [] _ (by simp) hz c.q.length (by simp [hzl]) ho
  refine ⟨⟨e1.trans hzl, e2⟩, rfl, ?_⟩
  unfold lazyConstant matrix
  simp only [e1.trans hzl]
  have hf : (zeroRows c.q.length c.degree).flatten = List.replicate (c.q.length * c.degree) 0 := by simp [zeroRows]
  rw [hf] at e3
  exact e3

end Fhe.Memory
