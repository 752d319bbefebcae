import Verif.Lemmas.MemoryScale
import Verif.Lemmas.RqCtx
/-! Unchecked accesses: polynomials. -/
namespace Fhe.Memory
open Release

variable {α β : Type}

/-! ## The transforms of the constant-time path -/

theorem chunkPass_total {f : Nat → Nat → Nat → Timed (Nat × Nat)} {l : Nat} (hl : 0 < l) (m k : Nat) (a : List Nat) (ha : a.length = 2 * l * m)
    (hf : ∀ k', k ≤ k' → k' < k + m → ∀ x y, Total (f k' x y)) : ∃ a', (chunkPass f l k a).result = some (a', k + m) ∧ a'.length = a.length := by
  induction m generalizing k a with
  | zero =>
    rw [chunkPass, dif_neg (by simp at ha; simp [ha]; omega)]
    exact ⟨a, rfl, rfl⟩
  | succ m ih =>
    have h2 : 2 * l ≤ a.length := by rw [ha, Nat.mul_succ]; omega
    rw [chunkPass, dif_pos ⟨hl, h2⟩]
    obtain ⟨prs, e1, e2⟩ := mapLoop_total (f := fun xy : Nat × Nat => f k xy.1 xy.2) (fun xy => hf k (le_refl _) (by omega) _ _)
      (((a.take (2 * l)).take l).zip ((a.take (2 * l)).drop l))
    obtain ⟨rest, e3, e4⟩ := ih (k + 1) (a.drop (2 * l)) (by rw [List.length_drop, ha, Nat.mul_succ]; omega) (fun k' h1 h2 => hf k' (by omega) (by omega))
    refine ⟨prs.map Prod.fst ++ prs.map Prod.snd ++ rest, ?_, ?_⟩
    · rw [bind_result_eq (show (branchOn True).result = some _ from rfl)]
      simp only []
      rw [bind_result_eq e1, bind_result_eq e3]
      show some _ = some _
      rw [show k + 1 + m = k + (m + 1) by omega]
    · simp only [List.length_append, List.length_map, e2, e4, List.length_zip, List.length_take, List.length_drop]
      omega

theorem forwardLoop_total {op : NttOperator} {n ω ωi : Nat} (h : op.WF n ω ωi) (t s : Nat) (hn : t + s + 1 = n) (a : List Nat) (ha : a.length = 2 ^ n) :
    ∃ a', (Release.forwardLoop op (2 ^ t) (2 ^ s) a).result = some a' ∧ a'.length = 2 ^ n := by
  obtain ⟨t1, t2, -, -⟩ := tables h
  have hT : ∀ last k, k < 2 ^ n → ∀ x y, Total (fwdOp op last k x y) := by
    intro last k hk x y
    refine Total.bind ⟨_, List.getElem?_eq_getElem (by omega)⟩ fun _ => Total.bind ⟨_, List.getElem?_eq_getElem (by omega)⟩ fun _ =>
      (total_butterfly op (fun _ _ => total_reduce1 ..) ..).bind fun _ => (Total.branch _).bind fun _ =>
        Total.ite ((total_reduce3 ..).bind fun _ => (total_reduce3 ..).bind fun _ => Total.pure _) (Total.pure _)
  induction t generalizing s a with
  | zero =>
    have hp : 2 ^ s + 2 ^ s = 2 ^ n := by rw [← hn]; ring
    obtain ⟨a', e1, e2⟩ := chunkPass_total (f := fwdOp op (decide ((1 : Nat) = 1))) (l := 1) one_pos (2 ^ s) (2 ^ s) a (by omega) (fun k' _ _ => hT _ _ (by omega))
    refine ⟨a', ?_, by omega⟩
    rw [Release.forwardLoop, dif_pos (by simp), show (2 : Nat) ^ 0 = 1 from rfl, bind_result_eq (show (branchOn True).result = some _ from rfl), bind_result_eq e1]
    show (Release.forwardLoop op (1 >>> 1) _ a').result = _
    rw [Release.forwardLoop, dif_neg (by decide)]; rfl
  | succ t ih =>
    have hp : 2 * 2 ^ (t + 1) * 2 ^ s = 2 ^ n := by rw [← hn]; ring
    have hle : 2 ^ s + 2 ^ s ≤ 2 ^ n := by
      rw [show 2 ^ s + 2 ^ s = 2 ^ (s + 1) by ring]; exact Nat.pow_le_pow_right (by omega) (by omega)
    obtain ⟨a1, e1, e2⟩ := chunkPass_total (f := fwdOp op (decide (2 ^ (t + 1) = 1))) (l := 2 ^ (t + 1)) (by positivity) (2 ^ s) (2 ^ s) a (by omega)
      (fun k' _ _ => hT _ _ (by omega))
    obtain ⟨a', e4, e5⟩ := ih (s + 1) (by omega) a1 (by omega)
    have e7 : 2 ^ (t + 1) >>> 1 = 2 ^ t := by rw [Nat.shiftRight_eq_div_pow]; omega
    have e9 : 2 ^ s + 2 ^ s = 2 ^ (s + 1) := by ring
    refine ⟨a', ?_, e5⟩
    rw [Release.forwardLoop, dif_pos (by positivity), bind_result_eq (show (branchOn True).result = some _ from rfl), bind_result_eq e1]
    simp only [e7, e9]; exact e4

theorem backwardLoop_total {op : NttOperator} {n ω ωi : Nat} (h : op.WF n ω ωi) (t s : Nat) (hn : t + s = n) (a : List Nat) (ha : a.length = 2 ^ n) :
    ∃ a', (Release.backwardLoop op (2 ^ s) (2 ^ n - 2 ^ t) a).result = some a' ∧ a'.length = 2 ^ n := by
  obtain ⟨-, -, t1, t2⟩ := tables h
  have hT : ∀ k, k < 2 ^ n → ∀ x y, Total (bwdOp op k x y) := by
    intro k hk x y
    exact Total.bind ⟨_, List.getElem?_eq_getElem (by omega)⟩ fun _ => Total.bind ⟨_, List.getElem?_eq_getElem (by omega)⟩ fun _ =>
      total_invButterfly op (fun _ _ => total_reduce1 ..) ..
  induction t generalizing s a with
  | zero =>
    rw [Release.backwardLoop, dif_neg (by rw [h.size, ← hn]; simp)]
    exact ⟨a, rfl, ha⟩
  | succ t ih =>
    have hp : 2 * 2 ^ s * 2 ^ t = 2 ^ n := by rw [← hn]; ring
    have hle : 2 ^ (t + 1) ≤ 2 ^ n := Nat.pow_le_pow_right (by omega) (by omega)
    have h2 : 2 ^ (t + 1) = 2 ^ t + 2 ^ t := by ring
    have h2' : 0 < 2 ^ t := by positivity
    obtain ⟨a1, e1, e2⟩ := chunkPass_total (f := bwdOp op) (l := 2 ^ s) (by positivity) (2 ^ t) (2 ^ n - 2 ^ (t + 1)) a (by omega) (fun k' _ _ => hT _ (by omega))
    obtain ⟨a', e4, e5⟩ := ih (s + 1) (by omega) a1 (by omega)
    have e8 : 2 ^ s <<< 1 = 2 ^ (s + 1) := by rw [Nat.shiftLeft_eq]; ring
    have e9 : 2 ^ n - 2 ^ (t + 1) + 2 ^ t = 2 ^ n - 2 ^ t := by omega
    refine ⟨a', ?_, e5⟩
    rw [Release.backwardLoop, dif_pos ⟨by positivity, by rw [h.size]; exact Nat.pow_lt_pow_right (by omega) (by omega)⟩,
      bind_result_eq (show (branchOn True).result = some _ from rfl), bind_result_eq e1]
    simp only [e8, e9]; exact e4

/-- A transform of a row that returns. -/
def Keeps (g : NttOperator → List Nat → Timed (List Nat)) (op : NttOperator) : Prop :=
  ∀ a : List Nat, a.length = op.size → ∃ a', (g op a).result = some a' ∧ a'.length = op.size

theorem forward_keeps {op : NttOperator} {n ω ωi : Nat} (h : op.WF n ω ωi) : Keeps forward op := by
  intro a ha
  have h3 := h.three_le
  rw [h.size] at ha ⊢
  unfold forward
  rw [half h]
  exact forwardLoop_total h (n - 1) 0 (by omega) a ha

theorem backward_keeps {op : NttOperator} {n ω ωi : Nat} (h : op.WF n ω ωi) : Keeps backward op := by
  intro a ha
  rw [h.size] at ha ⊢
  obtain ⟨a', e1, e2⟩ := backwardLoop_total h n 0 (by omega) a ha
  rw [Nat.sub_self, show (2 : Nat) ^ 0 = 1 from rfl] at e1
  obtain ⟨b, e4, e5⟩ := mapLoop_total (fun ai => total_mulShoup op.p ai op.sizeInv op.sizeInvShoup) a'
  refine ⟨b, ?_, by omega⟩
  unfold backward; rw [bind_result_eq e1]; exact e4

theorem Transforms.keeps {f : NttOperator → List Nat → Nat → Outcome (List Nat)} {g : NttOperator → List Nat → Timed (List Nat)} {op : NttOperator} (h : Transforms f g op) :
    Keeps g op := by
  intro a ha
  have := h a 0
  rw [if_pos (by omega)] at this
  obtain ⟨a', e1, e2, -⟩ := this
  rw [List.drop_zero, List.take_of_length_le (by omega)] at e1
  exact ⟨a', e1, e2⟩

/-! ## Matrices stored row after row -/

theorem putBack_length {mem a : List Nat} {ptr : Nat} (h : ptr + a.length ≤ mem.length) : (putBack mem ptr a).length = mem.length := by
  unfold putBack
  simp only [List.length_append, List.length_take, List.length_drop]; omega

/-- Row after row, possibly followed by entries that are not used. -/
structure RowMajor (a : Array2) : Prop where
  origin : a.origin = 0
  rowStride : a.rowStride = a.cols
  colStride : a.colStride = 1
  mem : a.rows * a.cols ≤ a.mem.length

theorem RowMajor.pos {a : Array2} (h : RowMajor a) (i j : Nat) : (a.pos i j).toNat = i * a.cols + j := by
  unfold Array2.pos
  rw [h.origin, h.rowStride, h.colStride]
  have : (0 : Int) + i * a.cols + j * 1 = ((i * a.cols + j : Nat) : Int) := by push_cast; ring
  rw [this]; rfl

theorem row_le {a : Array2} (h : RowMajor a) {i : Nat} (hi : i < a.rows) : i * a.cols + a.cols ≤ a.mem.length := by
  refine le_trans ?_ h.mem
  rw [← Nat.succ_mul]; exact Nat.mul_le_mul_right _ hi

theorem RowMajor.withMem {a : Array2} (h : RowMajor a) {mem : List Nat} (hm : mem.length = a.mem.length) : RowMajor { a with mem } :=
  ⟨h.origin, h.rowStride, h.colStride, by rw [hm]; exact h.mem⟩

theorem rowsVt_shape {f : NttOperator → List Nat → Nat → Outcome (List Nat)} {g : NttOperator → List Nat → Timed (List Nat)} (ops : List NttOperator) (i : Nat)
    (a : Array2) (h : RowMajor a) (hT : ∀ op ∈ ops, Transforms f g op ∧ op.size = a.cols) :
    ∃ mem, rowsVt f ops i a = .returned { a with mem } ∧ mem.length = a.mem.length := by
  induction ops generalizing i a with
  | nil => exact ⟨a.mem, rfl, rfl⟩
  | cons op ops ih =>
    unfold rowsVt
    split
    · rename_i hi
      have hrow := row_le h hi
      have := (hT op (by simp)).1 a.mem (a.pos i 0).toNat
      have hsz := (hT op (by simp)).2
      rw [h.pos, Nat.add_zero, if_pos (by omega)] at this
      obtain ⟨b, -, e2, e3⟩ := this
      have hl : (putBack a.mem (i * a.cols) b).length = a.mem.length := putBack_length (by omega)
      obtain ⟨mem, e4, e5⟩ := ih (i + 1) { a with mem := putBack a.mem (i * a.cols) b } (h.withMem hl) (fun op hop => hT op (by simp [hop]))
      refine ⟨mem, ?_, by rw [e5, hl]⟩
      rw [h.pos, Nat.add_zero, e3, ret_bind]; exact e4
    · exact ⟨a.mem, rfl, rfl⟩

theorem rowsCt_shape {g : NttOperator → List Nat → Timed (List Nat)} (ops : List NttOperator) (i : Nat)
    (a : Array2) (h : RowMajor a) (hT : ∀ op ∈ ops, Keeps g op ∧ op.size = a.cols) :
    ∃ mem, rowsCt g ops i a = .returned { a with mem } ∧ mem.length = a.mem.length := by
  induction ops generalizing i a with
  | nil => exact ⟨a.mem, rfl, rfl⟩
  | cons op ops ih =>
    unfold rowsCt
    split
    · rename_i hi
      rw [if_pos (Or.inr h.colStride)]
      have hrow := row_le h hi
      have hsz := (hT op (by simp)).2
      obtain ⟨b, e1, e2⟩ := (hT op (by simp)).1 ((a.mem.drop (i * a.cols)).take a.cols) (by rw [seg_length hrow, hsz])
      have hl : (putBack a.mem (i * a.cols) b).length = a.mem.length := putBack_length (by omega)
      obtain ⟨mem, e4, e5⟩ := ih (i + 1) { a with mem := putBack a.mem (i * a.cols) b } (h.withMem hl) (fun op hop => hT op (by simp [hop]))
      refine ⟨mem, ?_, by rw [e5, hl]⟩
      simp only [h.pos, Nat.add_zero]
      rw [safe_some e1, ret_bind]; exact e4
    · exact ⟨a.mem, rfl, rfl⟩

theorem flatten_length {l : List (List Nat)} {d : Nat} (h : ∀ r ∈ l, r.length = d) : l.flatten.length = l.length * d := by
  induction l with
  | nil => simp
  | cons r l ih =>
    rw [List.flatten_cons, List.length_append, h r (by simp), ih fun x hx => h x (by simp [hx]), List.length_cons]; ring

theorem putBack_middle {p r t b : List Nat} (hb : b.length = r.length) : putBack (p ++ (r ++ t)) p.length b = p ++ (b ++ t) := by
  unfold putBack
  rw [List.take_left, List.append_assoc, hb, List.drop_append]
  simp

/-- Both loops do to the rows what the functions on lists do. -/
theorem rows_standard {loop : List NttOperator → Nat → Array2 → Outcome Array2} {g : NttOperator → List Nat → Timed (List Nat)} {d : Nat} {P : NttOperator → Prop}
    (hnil : ∀ i a, loop [] i a = .returned a) (hend : ∀ op ops i a, ¬ i < a.rows → loop (op :: ops) i a = .returned a)
    (hstep : ∀ op ops i (a : Array2) b, P op → RowMajor a → a.cols = d → i < a.rows → op.size = d →
      (g op ((a.mem.drop (i * d)).take d)).result = some b → b.length = d →
      loop (op :: ops) i a = loop ops (i + 1) { a with mem := putBack a.mem (i * d) b })
    (ops : List NttOperator) (hT : ∀ op ∈ ops, P op ∧ Keeps g op ∧ op.size = d) (done rest : List (List Nat)) (hdone : ∀ r ∈ done, r.length = d)
    (hrest : ∀ r ∈ rest, r.length = d) (N : Nat) (hN : N = done.length + rest.length) :
    ∃ out, (zipLoop (fun v op => g op v) rest ops).result = some out ∧ out.length = rest.length ∧ (∀ r ∈ out, r.length = d) ∧
      loop ops done.length (Array2.standard N d (done.flatten ++ rest.flatten)) = .returned (Array2.standard N d (done.flatten ++ out.flatten)) := by
  induction ops generalizing done rest with
  | nil => exact ⟨rest, by cases rest <;> rfl, rfl, hrest, hnil _ _⟩
  | cons op ops ih =>
    rcases rest with _ | ⟨r, rest⟩
    · exact ⟨[], rfl, rfl, by simp, hend _ _ _ _ (by simp [Array2.standard, hN])⟩
    · have hr := hrest r (by simp)
      have hfd := flatten_length hdone
      have hfr := flatten_length (l := rest) (d := d) fun x hx => hrest x (by simp [hx])
      obtain ⟨hP, hK, hsz⟩ := hT op (by simp)
      obtain ⟨b, e1, e2⟩ := hK r (by rw [hr, hsz])
      obtain ⟨out, e3, e4, e5, e6⟩ := ih (fun op hop => hT op (by simp [hop])) (done ++ [b]) rest
        (by intro x hx; rcases List.mem_append.1 hx with hx | hx; · exact hdone x hx
            · rw [List.mem_singleton.1 hx, e2, hsz]) (fun x hx => hrest x (by simp [hx])) (by simp only [List.length_append, List.length_cons, List.length_nil] at hN ⊢; omega)
      refine ⟨b :: out, ?_, by simp [e4], ?_, ?_⟩
      · show ((branchOn True >>= fun _ => g op r >>= fun c => zipLoop (fun v op => g op v) rest ops >>= fun cs => (pure (c :: cs) : Timed _))).result = _
        rw [bind_result_eq (show (branchOn True).result = some _ from rfl), bind_result_eq e1, bind_result_eq e3]; rfl
      · intro x hx
        rcases List.mem_cons.1 hx with rfl | hx
        · rw [e2, hsz]
        · exact e5 x hx
      · rw [hstep op ops done.length _ b hP ?_ rfl ?_ hsz ?_ (by rw [e2, hsz])]
        · have : putBack (Array2.standard N d (done.flatten ++ (r :: rest).flatten)).mem (done.length * d) b = (done ++ [b]).flatten ++ rest.flatten := by
            show putBack (done.flatten ++ (r :: rest).flatten) (done.length * d) b = _
            rw [← hfd, List.flatten_cons, putBack_middle (by omega)]; simp
          rw [this]
          have h7 : (done ++ [b]).flatten ++ out.flatten = done.flatten ++ (b :: out).flatten := by simp
          rw [← h7]
          simp only [List.length_append, List.length_cons, List.length_nil] at e6
          exact e6
        · refine ⟨rfl, rfl, rfl, ?_⟩
          show N * d ≤ (done.flatten ++ (r :: rest).flatten).length
          rw [List.length_append, List.flatten_cons, List.length_append, hfd, hfr, hr, hN, List.length_cons]
          exact le_of_eq (by ring)
        · show done.length < N
          rw [hN, List.length_cons]; omega
        · show (g op (((done.flatten ++ (r :: rest).flatten).drop (done.length * d)).take d)).result = _
          rw [← hfd, List.drop_left, List.flatten_cons, ← hr, List.take_left]; exact e1

theorem rowsVt_standard {f : NttOperator → List Nat → Nat → Outcome (List Nat)} {g : NttOperator → List Nat → Timed (List Nat)} {d : Nat}
    (ops : List NttOperator) (hT : ∀ op ∈ ops, Transforms f g op ∧ op.size = d) (rows : List (List Nat)) (hrows : ∀ r ∈ rows, r.length = d) :
    ∃ out, (zipLoop (fun v op => g op v) rows ops).result = some out ∧ out.length = rows.length ∧ (∀ r ∈ out, r.length = d) ∧
      rowsVt f ops 0 (Array2.standard rows.length d rows.flatten) = .returned (Array2.standard rows.length d out.flatten) := by
  refine rows_standard (loop := rowsVt f) (g := g) (P := Transforms f g) (fun _ _ => rfl) ?_ ?_ ops
    (fun op hop => ⟨(hT op hop).1, (hT op hop).1.keeps, (hT op hop).2⟩) [] rows (by simp) hrows rows.length (by simp)
  · intro op ops i a hi; unfold rowsVt; rw [if_neg hi]; rfl
  · intro op ops i a b hP hA hc hi hs hb hbl
    have := hP a.mem (i * d)
    have hle := row_le hA hi
    rw [hc] at hle
    rw [if_pos (by omega), hs] at this
    obtain ⟨b', e1, -, e3⟩ := this
    obtain rfl : b' = b := Option.some.inj (e1.symm.trans hb)
    rw [rowsVt, if_pos hi, hA.pos, Nat.add_zero, hc, e3, ret_bind]

theorem rowsCt_standard {g : NttOperator → List Nat → Timed (List Nat)} {d : Nat}
    (ops : List NttOperator) (hT : ∀ op ∈ ops, Keeps g op ∧ op.size = d) (rows : List (List Nat)) (hrows : ∀ r ∈ rows, r.length = d) :
    ∃ out, (zipLoop (fun v op => g op v) rows ops).result = some out ∧ out.length = rows.length ∧ (∀ r ∈ out, r.length = d) ∧
      rowsCt g ops 0 (Array2.standard rows.length d rows.flatten) = .returned (Array2.standard rows.length d out.flatten) := by
  refine rows_standard (loop := rowsCt g) (g := g) (P := fun _ => True) (fun _ _ => rfl) ?_ ?_ ops
    (fun op hop => ⟨trivial, hT op hop⟩) [] rows (by simp) hrows rows.length (by simp)
  · intro op ops i a hi; unfold rowsCt; rw [if_neg hi]; rfl
  · intro op ops i a b _ hA hc hi hs hb hbl
    rw [rowsCt, if_pos hi, if_pos (Or.inr hA.colStride)]
    simp only [hA.pos, Nat.add_zero, hc]
    rw [safe_some hb, ret_bind]

/-! ## Other layouts -/

/-- A matrix whose columns are in reversed order: the last transform starts at the last entry of the allocation. -/
theorem rowsVt_reversed {f : NttOperator → List Nat → Nat → Outcome (List Nat)} {g : NttOperator → List Nat → Timed (List Nat)} {d L : Nat} (hd : 2 ≤ d)
    (ops : List NttOperator) (hT : ∀ op ∈ ops, Transforms f g op ∧ op.size = d) (i : Nat) (mem : List Nat) (hm : mem.length = L * d) (cs : Int)
    (hops : i + ops.length = L) (hne : ops ≠ []) : rowsVt f ops i ⟨mem, (d - 1 : Nat), L, d, d, cs⟩ = .undefined := by
  induction ops generalizing i mem with
  | nil => exact absurd rfl hne
  | cons op ops ih =>
    rw [List.length_cons] at hops
    obtain ⟨hP, hs⟩ := hT op (by simp)
    have hpos : ((⟨mem, (d - 1 : Nat), L, d, d, cs⟩ : Array2).pos i 0).toNat = i * d + (d - 1) := by
      unfold Array2.pos
      have : ((d - 1 : Nat) : Int) + i * d + (0 : Nat) * cs = ((i * d + (d - 1) : Nat) : Int) := by push_cast; ring
      rw [this]; rfl
    have := hP mem (i * d + (d - 1))
    rw [rowsVt, if_pos (show i < L by omega), hpos]
    by_cases hl : ops = []
    · subst hl
      have hL : L = i + 1 := by simpa using hops.symm
      rw [if_neg (by rw [hm, hL, hs, Nat.succ_mul]; omega)] at this
      show (f op mem (i * d + (d - 1)) >>= _) = _
      rw [this]; rfl
    · have : 0 < ops.length := List.length_pos_iff.2 hl
      have hle : (i + 2) * d ≤ mem.length := by rw [hm]; exact Nat.mul_le_mul_right _ (by omega)
      have he : (i + 2) * d = i * d + d + d := by ring
      have := hP mem (i * d + (d - 1))
      rw [if_pos (by omega)] at this
      obtain ⟨b, -, e2, e3⟩ := this
      show (f op mem (i * d + (d - 1)) >>= _) = _
      rw [e3, ret_bind]
      exact ih (fun op hop => hT op (by simp [hop])) (i + 1) _ (by rw [putBack_length (by omega), hm]) (by omega) hl

end Fhe.Memory
