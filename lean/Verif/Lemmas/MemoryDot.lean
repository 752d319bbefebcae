import Verif.Lemmas.MemoryPoly
/-! Unchecked accesses: constants, scaling of polynomials and dot products. -/
namespace Fhe.Memory
open Release

variable {α β : Type}

/-! ## Constants -/

theorem total_lazyReduce (m : Modulus) (a : Nat) : Total (lazyReduce m a) := ⟨_, rfl⟩
theorem total_lazyReduceOpt (m : Modulus) (a : Nat) : Total (lazyReduceOpt m a) := ⟨_, rfl⟩

theorem lazyReduceVec_total (m : Modulus) (v : List Nat) : ∃ v', (lazyReduceVec m v).result = some v' ∧ v'.length = v.length := by
  unfold lazyReduceVec
  rw [bind_result_eq (show (branchOn (m.supportsOpt = true)).result = some _ from rfl)]
  split
  · exact mapLoop_total (total_lazyReduceOpt m) v
  · exact mapLoop_total (total_lazyReduce m) v

theorem lazyConstantRows_ok {v : List Nat} (l : List (Modulus × NttOperator)) (i : Nat) (a : Array2) (h : RowMajor a) (hv : v.length = a.cols)
    (hT : ∀ x ∈ l, Transforms forwardVtLazy Release.forwardVtLazy x.2 ∧ x.2.size = a.cols) :
    ∃ mem, lazyConstantRows v l i a = .returned { a with mem } ∧ mem.length = a.mem.length := by
  induction l generalizing i a with
  | nil => exact ⟨a.mem, rfl, rfl⟩
  | cons x l ih =>
    obtain ⟨q, op⟩ := x
    unfold lazyConstantRows
    split
    · rename_i hi
      rw [if_neg (by omega)]
      have hrow := row_le h hi
      obtain ⟨row, r1, r2⟩ := lazyReduceVec_total q v
      have hl0 : (putBack a.mem (i * a.cols) row).length = a.mem.length := putBack_length (by omega)
      have := (hT (q, op) (by simp)).1 (putBack a.mem (i * a.cols) row) (i * a.cols)
      have hsz := (hT (q, op) (by simp)).2
      simp only at hsz this
      rw [if_pos (by omega)] at this
      obtain ⟨b, -, e2, e3⟩ := this
      have hl : (putBack (putBack a.mem (i * a.cols) row) (i * a.cols) b).length = a.mem.length := by rw [putBack_length (by omega), hl0]
      obtain ⟨mem, e4, e5⟩ := ih (i + 1) { a with mem := putBack (putBack a.mem (i * a.cols) row) (i * a.cols) b } (h.withMem hl) hv (fun op hop => hT op (by simp [hop]))
      refine ⟨mem, ?_, by rw [e5, hl]⟩
      simp only [h.pos, Nat.add_zero]
      rw [safe_some r1, ret_bind, e3, ret_bind]; exact e4
    · exact ⟨a.mem, rfl, rfl⟩

/-! ## Scaling -/

theorem column_ok {a : Array2} (h : RowMajor a) {j : Nat} (hj : j < a.cols) : ∃ c, column a j = .returned c ∧ c.length = a.rows := by
  refine ⟨(List.range' 0 a.rows).map fun i => a.mem.getD (i * a.cols + j) 0, collect_ok _ _ fun i _ hi => ?_, by simp⟩
  have := row_le h (i := i) (by omega)
  rw [checked_lt (show i * a.cols + j < a.mem.length by omega), List.getD_eq_getElem _ _ (by omega)]

theorem setColumn_shape (l : List Nat) (a : Array2) (first j : Nat) : ∃ mem, setColumn a first j l = { a with mem } ∧ mem.length = a.mem.length := by
  induction l generalizing a first with
  | nil => exact ⟨a.mem, rfl, rfl⟩
  | cons x l ih =>
    unfold setColumn
    obtain ⟨mem, e1, e2⟩ := ih { a with mem := a.mem.set (first * a.cols + j) x } (first + 1)
    exact ⟨mem, e1, by rw [e2]; simp⟩

theorem scaleColumns_ok {s : Scaler} {D S : Nat} (hs : Tables s.scaler D S) {src : Array2} (hsrc : RowMajor src) (hS : src.rows = S) (hD : s.dst.q.length = D)
    (hn : s.ncommon < D) (left j : Nat) (hj : j + left ≤ src.cols) (out : Array2) :
    ∃ mem, scaleColumns s src left j out = .returned { out with mem } ∧ mem.length = out.mem.length := by
  induction left generalizing j out with
  | zero => exact ⟨out.mem, rfl, rfl⟩
  | succ left ih =>
    obtain ⟨c, c1, c2⟩ := column_ok hsrc (show j < src.cols by omega)
    have hsc := scale_eq hs c (s.dst.q.length - s.ncommon) s.ncommon
    rw [if_pos (Or.inr ⟨by omega, by omega⟩)] at hsc
    obtain ⟨new, n1, -, -⟩ := hsc
    obtain ⟨m1, e1, e2⟩ := setColumn_shape new out s.ncommon j
    obtain ⟨mem, e3, e4⟩ := ih (j + 1) (by omega) { out with mem := m1 }
    refine ⟨mem, ?_, by rw [e4]; exact e2⟩
    unfold scaleColumns
    rw [c1, ret_bind, n1, ret_bind, e1, e3]

/-! ## Dot products of polynomials -/

theorem dotReduceAt_ok (vt : Bool) (q : Modulus) (left i : Nat) (acc : List Nat) (h : i + left ≤ acc.length) :
    ∃ acc', dotReduceAt vt q left i acc = .returned acc' ∧ acc'.length = acc.length := by
  induction left generalizing i acc with
  | zero => exact ⟨acc, rfl, rfl⟩
  | succ left ih =>
    obtain ⟨y, hy⟩ : Total (if vt then reduceU128Vt q acc[i] else reduceU128 q acc[i]) := Total.ite (total_reduceU128Vt ..) (total_reduceU128 ..)
    obtain ⟨acc', e1, e2⟩ := ih (i + 1) (acc.set i y) (by simp only [List.length_set]; omega)
    refine ⟨acc', ?_, by rw [e2]; simp⟩
    unfold dotReduceAt
    rw [unchecked_lt (by omega), ret_bind, safe_some hy, ret_bind, e1]

theorem dotStep_ok (vt : Bool) (degree : Nat) {q : List Modulus} {maxAcc : List Nat} (hm : maxAcc.length = q.length) (left j : Nat) (numAcc acc : List Nat)
    (hj : j + left = q.length) (hn : numAcc.length = q.length) (ha : acc.length = q.length * degree) :
    ∃ r, dotStep vt degree q maxAcc left j numAcc acc = .returned r ∧ r.1.length = q.length ∧ r.2.length = q.length * degree := by
  induction left generalizing j numAcc acc with
  | zero => exact ⟨_, rfl, hn, ha⟩
  | succ left ih =>
    unfold dotStep
    rw [unchecked_lt (by omega), ret_bind, unchecked_lt (by omega), ret_bind, unchecked_lt (by omega), ret_bind]
    split
    · have hle : (j + 1) * degree ≤ q.length * degree := Nat.mul_le_mul_right _ (by omega)
      obtain ⟨acc', e1, e2⟩ := dotReduceAt_ok vt q[j] degree (j * degree) acc (by rw [ha]; rw [Nat.succ_mul] at hle; exact hle)
      rw [e1, ret_bind]
      exact ih (j + 1) _ acc' (by omega) (by simp [hn]) (by omega)
    · exact ih (j + 1) _ acc (by omega) (by simp [hn]) ha

theorem fmaChecked_cases (out x y : List Nat) : fmaChecked out x y = .panicked ∨ ∃ o, fmaChecked out x y = .returned o ∧ o.length = out.length := by
  unfold fmaChecked
  split
  · rename_i h
    refine Or.inr ⟨_, rfl, ?_⟩
    rw [List.length_zipWith, List.length_zip]; omega
  · exact Or.inl rfl

theorem dotLoop_ne (vt : Bool) (degree : Nat) {q : List Modulus} {maxAcc : List Nat} (hm : maxAcc.length = q.length) (l : List (List Nat × List Nat))
    (numAcc acc : List Nat) (hn : numAcc.length = q.length) (ha : acc.length = q.length * degree) : dotLoop vt degree q maxAcc l numAcc acc ≠ .undefined := by
  induction l generalizing numAcc acc with
  | nil => exact nofun
  | cons x l ih =>
    obtain ⟨x, y⟩ := x
    unfold dotLoop
    rcases fmaChecked_cases acc x y with h | ⟨o, h, hl⟩
    · rw [h]; exact nofun
    · rw [h, ret_bind]
      obtain ⟨r, e1, e2, e3⟩ := dotStep_ok vt degree hm q.length 0 numAcc o (by omega) hn (by omega)
      rw [e1, ret_bind]
      exact ih _ _ e2 e3

theorem dotLoopPlain_ne (l : List (List Nat × List Nat)) (acc : List Nat) : dotLoopPlain l acc ≠ .undefined := by
  induction l generalizing acc with
  | nil => exact nofun
  | cons x l ih =>
    obtain ⟨x, y⟩ := x
    unfold dotLoopPlain
    rcases fmaChecked_cases acc x y with h | ⟨o, h, -⟩
    · rw [h]; exact nofun
    · rw [h, ret_bind]; exact ih _

theorem bind_ne {x : Outcome α} {f : α → Outcome β} (h : x ≠ .undefined) (hf : ∀ a, f a ≠ .undefined) : (x >>= f) ≠ .undefined := by
  cases x with
  | returned a => exact hf a
  | panicked => exact nofun
  | undefined => exact absurd rfl h

theorem dotProduct_ne (p q : List (Poly .ntt)) : dotProduct p q ≠ .undefined := by
  unfold dotProduct
  split
  · exact nofun
  split
  · exact nofun
  split
  · exact nofun
  split
  · exact nofun
  simp only []
  split
  · exact nofun
  · split
    · exact bind_ne (dotLoop_ne _ _ (by simp) _ _ _ (by simp) (by simp)) fun acc => bind_ne safe_ne fun _ => by rw [pure_ret]; exact nofun
    · exact bind_ne (dotLoopPlain_ne _ _) fun acc => bind_ne safe_ne fun _ => by rw [pure_ret]; exact nofun

/-! ## Dot products of ciphertexts and plaintexts -/

/-- One update. -/
def fmaEntry (o a b : Nat) : Nat := wadd128 o (wmul128 a b)

theorem fmaRun_ok (x y : List Nat) (count idx : Nat) (out : List Nat) (ho : idx + count ≤ out.length) (hx : idx + count ≤ x.length) (hy : idx + count ≤ y.length) :
    ∃ out', fmaRun x y count idx out = .returned out' ∧ out'.length = out.length ∧
      ∀ k, out'[k]? = if idx ≤ k ∧ k < idx + count then some (fmaEntry (out.getD k 0) (x.getD k 0) (y.getD k 0)) else out[k]? := by
  induction count generalizing idx out with
  | zero => exact ⟨out, rfl, rfl, fun k => by rw [if_neg (by omega)]⟩
  | succ count ih =>
    obtain ⟨out', e1, e2, e3⟩ := ih (idx + 1) (out.set idx (fmaEntry out[idx] x[idx] y[idx])) (by simp only [List.length_set]; omega) (by omega) (by omega)
    refine ⟨out', ?_, by rw [e2]; simp, fun k => ?_⟩
    · unfold fmaRun fmaAt
      rw [unchecked_lt (by omega), ret_bind, unchecked_lt (by omega), ret_bind, unchecked_lt (by omega), ret_bind]
      exact e1
    · rw [e3 k]
      by_cases hk : k = idx
      · subst hk
        rw [if_neg (by omega), if_pos (by omega), List.getElem?_set_self (by omega), List.getD_eq_getElem _ _ (by omega), List.getD_eq_getElem _ _ (by omega),
          List.getD_eq_getElem _ _ (by omega)]
      · by_cases hk' : idx + 1 ≤ k ∧ k < idx + 1 + count
        · rw [if_pos hk', if_pos (by omega)]
          simp only [List.getD_eq_getElem?_getD, List.getElem?_set_ne (Ne.symm hk)]
        · rw [if_neg hk', if_neg (by omega), List.getElem?_set_ne (Ne.symm hk)]

theorem fmaRun_undefined (x y : List Nat) (count idx : Nat) (out : List Nat) (hi : idx ≤ x.length ∧ idx ≤ y.length)
    (h : x.length < idx + count ∨ y.length < idx + count) : fmaRun x y count idx out = .undefined := by
  induction count generalizing idx out with
  | zero => omega
  | succ count ih =>
    unfold fmaRun fmaAt
    by_cases hx : idx < x.length
    · rw [unchecked_lt hx, ret_bind]
      by_cases hy : idx < y.length
      · rw [unchecked_lt hy, ret_bind]
        by_cases ho : idx < out.length
        · rw [unchecked_lt ho, ret_bind, pure_ret, ret_bind]
          exact ih (idx + 1) _ (by omega) (by omega)
        · rw [unchecked_ge (by omega)]; rfl
      · rw [unchecked_ge (by omega)]; rfl
    · rw [unchecked_ge (by omega)]; rfl

theorem fmaRun_append (x y : List Nat) (c c' idx : Nat) (out : List Nat) :
    fmaRun x y (c + c') idx out = (fmaRun x y c idx out >>= fun out => fmaRun x y c' (idx + c) out) := by
  induction c generalizing idx out with
  | zero => simp [fmaRun]
  | succ c ih =>
    rw [Nat.succ_add, fmaRun, fmaRun]
    cases fmaAt x y out idx with
    | returned o => rw [ret_bind, ret_bind, ih, show idx + 1 + c = idx + (c + 1) by omega]
    | panicked => rfl
    | undefined => rfl

theorem fmaBlocks_eq (x y : List Nat) (left i : Nat) (out : List Nat) : fmaBlocks x y left i out = fmaRun x y (16 * left) (16 * i) out := by
  induction left generalizing i out with
  | zero => rfl
  | succ left ih =>
    rw [show 16 * (left + 1) = 16 + 16 * left by ring, fmaRun_append]
    unfold fmaBlocks
    cases fmaRun x y 16 (16 * i) out with
    | returned o => rw [ret_bind, ret_bind, ih, show 16 * (i + 1) = 16 * i + 16 by ring]
    | panicked => rfl
    | undefined => rfl

theorem fmaUnchecked_run (out x y : List Nat) : fmaUnchecked out x y = fmaRun x y out.length 0 out := by
  unfold fmaUnchecked
  simp only [fmaBlocks_eq]
  conv_rhs => rw [show out.length = 16 * (out.length / 16) + out.length % 16 by omega, fmaRun_append, Nat.zero_add]

theorem fmaUnchecked_eq (out x y : List Nat) :
    fmaUnchecked out x y = if out.length ≤ x.length ∧ out.length ≤ y.length then
      .returned (List.zipWith (fun o (ab : Nat × Nat) => fmaEntry o ab.1 ab.2) out (x.zip y)) else .undefined := by
  rw [fmaUnchecked_run]
  split
  · rename_i h
    obtain ⟨out', e1, e2, e3⟩ := fmaRun_ok x y out.length 0 out (by omega) (by omega) (by omega)
    rw [e1]
    congr 1
    refine List.ext_getElem? fun k => ?_
    rw [e3 k]
    by_cases hk : k < out.length
    · rw [if_pos (by omega), List.getElem?_eq_getElem (by simp; omega), List.getElem_zipWith, List.getElem_zip, List.getD_eq_getElem _ _ hk,
        List.getD_eq_getElem _ _ (by omega), List.getD_eq_getElem _ _ (by omega)]
    · rw [if_neg (by omega), List.getElem?_eq_none (by omega), List.getElem?_eq_none (by simp; omega)]
  · rename_i h
    exact fmaRun_undefined x y _ 0 out (by omega) (by omega)

end Fhe.Memory
