import Verif.Lemmas.MemoryScalar
import Verif.Lemmas.RqCtx
/-! The transforms and the scaling of the polynomials that a program can make. -/
namespace Fhe.Memory
open Release
open Spec (RightShape MadeContext Made)

variable {α β : Type} {b : Build} {n : Nat} {c : Context} {r : Rep}

theorem made_context (hb : b.OK) (h : MadeContext b c) : ∃ n, c.WF b n := by
  induction h with
  | new h => obtain ⟨n, -, h, -⟩ := Context.new_inv hb h; exact ⟨n, h⟩
  | next h hc ih =>
    rename_i c c'
    obtain ⟨n, ih⟩ := ih
    by_cases h2 : 2 ≤ c.moduli.length
    · obtain ⟨c2, e, hw, -⟩ := Context.WF.next_some ih h2
      rw [e] at hc; cases hc
      exact ⟨n, hw⟩
    · rw [Context.WF.next_none ih (by omega)] at hc; cases hc

theorem q_length (h : c.WF b n) : c.q.length = c.ops.length := by rw [h.level.q, List.length_map]
theorem moduli_length (h : c.WF b n) : c.moduli.length = c.q.length := by rw [h.level.moduli, h.level.q]; simp
theorem op_size (h : c.WF b n) {op : NttOperator} (ho : op ∈ c.ops) : op.size = c.degree := by
  obtain ⟨ω, ωi, hw⟩ := h.level.ops op ho
  rw [hw.size, h.level.degree]

theorem forward_all (h : c.WF b n) : ∀ op ∈ c.ops, Transforms forwardVt Release.forwardVt op ∧ op.size = c.degree := fun op ho =>
  ⟨by obtain ⟨ω, ωi, hw⟩ := h.level.ops op ho; exact forwardVt_mem hw, op_size h ho⟩
theorem backward_all (h : c.WF b n) : ∀ op ∈ c.ops, Transforms backwardVt Release.backwardVt op ∧ op.size = c.degree := fun op ho =>
  ⟨by obtain ⟨ω, ωi, hw⟩ := h.level.ops op ho; exact backwardVt_mem hw, op_size h ho⟩
theorem lazy_all (h : c.WF b n) : ∀ op ∈ c.ops, Transforms forwardVtLazy Release.forwardVtLazy op ∧ op.size = c.degree := fun op ho =>
  ⟨by obtain ⟨ω, ωi, hw⟩ := h.level.ops op ho; exact forwardVtLazy_mem hw, op_size h ho⟩
theorem forward_all_ct (h : c.WF b n) : ∀ op ∈ c.ops, Keeps forward op ∧ op.size = c.degree := fun op ho =>
  ⟨by obtain ⟨ω, ωi, hw⟩ := h.level.ops op ho; exact forward_keeps hw, op_size h ho⟩
theorem backward_all_ct (h : c.WF b n) : ∀ op ∈ c.ops, Keeps backward op ∧ op.size = c.degree := fun op ho =>
  ⟨by obtain ⟨ω, ωi, hw⟩ := h.level.ops op ho; exact backward_keeps hw, op_size h ho⟩

theorem forward_matrix {p : Poly r} (hw : p.ctx.WF b n) (hp : RightShape p) :
    ∃ x, (Release.nttForward p).result = some x ∧ RightShape x ∧ x.ctx = p.ctx ∧ nttForward p.ctx.ops p.vt (matrix p) = .returned (matrix x) := by
  unfold Release.nttForward nttForward
  rw [bind_result_eq (show (branchOn (p.vt = true)).result = some _ from rfl)]
  cases hv : p.vt
  · obtain ⟨out, e1, e2, e3, e4⟩ := rowsCt_standard p.ctx.ops (forward_all_ct hw) p.coeffs hp.2
    refine ⟨{ p with coeffs := out }, ?_, ⟨e2.trans hp.1, e3⟩, rfl, ?_⟩
    · rw [if_neg (by simp), bind_result_eq e1, ← hv]; rfl
    · rw [if_neg (by simp)]; unfold matrix; rw [e4]; simp only [e2]
  · obtain ⟨out, e1, e2, e3, e4⟩ := rowsVt_standard p.ctx.ops (forward_all hw) p.coeffs hp.2
    refine ⟨{ p with coeffs := out }, ?_, ⟨e2.trans hp.1, e3⟩, rfl, ?_⟩
    · rw [if_pos (by simp), bind_result_eq e1, ← hv]; rfl
    · rw [if_pos rfl]; unfold matrix; rw [e4]; simp only [e2]

theorem backward_matrix {p : Poly r} (hw : p.ctx.WF b n) (hp : RightShape p) :
    ∃ x, (Release.nttBackward p).result = some x ∧ RightShape x ∧ x.ctx = p.ctx ∧ nttBackward p.ctx.ops p.vt (matrix p) = .returned (matrix x) := by
  unfold Release.nttBackward nttBackward
  rw [bind_result_eq (show (branchOn (p.vt = true)).result = some _ from rfl)]
  cases hv : p.vt
  · obtain ⟨out, e1, e2, e3, e4⟩ := rowsCt_standard p.ctx.ops (backward_all_ct hw) p.coeffs hp.2
    refine ⟨{ p with coeffs := out }, ?_, ⟨e2.trans hp.1, e3⟩, rfl, ?_⟩
    · rw [if_neg (by simp), bind_result_eq e1, ← hv]; rfl
    · rw [if_neg (by simp)]; unfold matrix; rw [e4]; simp only [e2]
  · obtain ⟨out, e1, e2, e3, e4⟩ := rowsVt_standard p.ctx.ops (backward_all hw) p.coeffs hp.2
    refine ⟨{ p with coeffs := out }, ?_, ⟨e2.trans hp.1, e3⟩, rfl, ?_⟩
    · rw [if_pos (by simp), bind_result_eq e1, ← hv]; rfl
    · rw [if_pos rfl]; unfold matrix; rw [e4]; simp only [e2]

/-! ## The shape of the results -/

theorem random_shape {rows : List (List Nat)} {p : Poly r} (h : Poly.random r c rows = some p) : RightShape p ∧ p.ctx = c := by
  have hz : ∀ (a b out : List (List Nat)) (d : Nat), (∀ x ∈ a, x.length = d) → zipRows (fun w v => do check (v.length = w.length); return v) a b = some out →
      out.length = a.length ∧ ∀ x ∈ out, x.length = d := by
    intro a
    induction a with
    | nil => intro b out d _ h; cases b <;> cases h <;> simp
    | cons x a ih =>
      intro b out d hd h
      cases b with
      | nil => cases h; exact ⟨rfl, hd⟩
      | cons y b =>
        unfold zipRows at h
        simp only [Option.bind_eq_bind, Option.bind_eq_some_iff, Option.pure_def, Option.some.injEq] at h
        obtain ⟨x', ⟨_, e1, rfl⟩, out', e2, rfl⟩ := h
        obtain ⟨l1, l2⟩ := ih b out' d (fun x hx => hd x (by simp [hx])) e2
        refine ⟨by simp [l1], fun z hz => ?_⟩
        rcases List.mem_cons.1 hz with rfl | hz
        · have : z.length = x.length := by
            by_contra hc
            rw [check, if_neg hc] at e1
            cases e1
          rw [this]; exact hd x (by simp)
        · exact l2 z hz
  unfold Poly.random at h
  simp only [Option.bind_eq_bind, Option.bind_eq_some_iff] at h
  obtain ⟨out, e1, e2⟩ := h
  obtain ⟨l1, l2⟩ := hz _ _ _ c.degree (zero_shape (r := r) c).2 e1
  have l1 := l1.trans (zero_shape (r := r) c).1
  split at e2
  · unfold Poly.computeShoup at e2
    simp only [Option.bind_eq_bind, Option.bind_eq_some_iff] at e2
    obtain ⟨s, -, e2⟩ := e2
    cases e2
    exact ⟨⟨l1, l2⟩, rfl⟩
  · cases e2; exact ⟨⟨l1, l2⟩, rfl⟩

theorem fromU64Ntt_shape {v : List Nat} {vt : Bool} {p : Poly .ntt} (h : Poly.tryFromU64Ntt v c vt = some (.ok p)) : RightShape p ∧ p.ctx = c := by
  unfold Poly.tryFromU64Ntt at h
  split at h
  · rename_i cs h1
    cases h
    unfold Poly.fromShapeVec at h1
    split at h1
    · cases h1; exact ⟨splitRows_shape _ _ _ (by assumption), rfl⟩
    · cases h1
  · cases h

theorem switchDown_made {p x : Poly .powerBasis} (hw : p.ctx.WF b n) (hp : RightShape p) (h : (Release.switchDown p).result = some (.ok x)) : RightShape x ∧ x.ctx.WF b n := by
  by_cases h2 : 2 ≤ p.ctx.moduli.length
  · obtain ⟨c', e, hw', hm⟩ := Context.WF.next_some hw h2
    have hl : c'.q.length = p.ctx.q.length - 1 := by
      rw [← moduli_length hw, ← moduli_length hw', hm, List.length_dropLast]
    obtain ⟨s1, s2⟩ := switchDown_shape hp e hl (hw'.level.degree.trans hw.level.degree.symm) h
    exact ⟨s1, by rw [s2]; exact hw'⟩
  · unfold Release.switchDown at h
    simp only [Context.WF.next_none hw (by omega)] at h
    cases h

theorem switchDownLoop_made (k : Nat) {p x : Poly .powerBasis} (hw : p.ctx.WF b n) (hp : RightShape p) (h : (switchDownLoop k p).result = some (.ok x)) : RightShape x ∧ x.ctx.WF b n := by
  induction k generalizing p with
  | zero =>
    unfold switchDownLoop at h
    obtain ⟨_, -, h⟩ := Release.bind_result h
    cases h
    exact ⟨hp, hw⟩
  | succ k ih =>
    unfold switchDownLoop at h
    obtain ⟨_, -, h⟩ := Release.bind_result h
    obtain ⟨y, hy, h⟩ := Release.bind_result h
    split at h
    · cases h
    · obtain ⟨s1, s2⟩ := switchDown_made hw hp hy
      exact ih s2 s1 h

theorem zip_shape2 {f : List Nat → β → Timed (List Nat)} {d : Nat} {y : List β} (hf : ∀ x ∈ y, ∀ v v', v.length = d → (f v x).result = some v' → v'.length = d) {x : List (List Nat)} {rows : List (List Nat)}
    (h : (zipLoop f x y).result = some rows) (hx : ∀ r ∈ x, r.length = d) : rows.length = x.length ∧ ∀ r ∈ rows, r.length = d := by
  refine ⟨zipLoop_length h, ?_⟩
  induction x generalizing y rows with
  | nil => unfold zipLoop at h; obtain rfl : [] = rows := Option.some.inj (branch_step h); simp
  | cons a xs ih =>
    cases y with
    | nil => unfold zipLoop at h; obtain rfl : a :: xs = rows := Option.some.inj (branch_step h); exact hx
    | cons z ys =>
      unfold zipLoop at h
      obtain ⟨c, hc, h⟩ := Release.bind_result (branch_step h)
      obtain ⟨cs, hcs, h⟩ := Release.bind_result h
      obtain rfl : c :: cs = rows := Option.some.inj h
      intro v hv
      rcases List.mem_cons.1 hv with rfl | hv
      · exact hf z (by simp) _ _ (hx a (by simp)) hc
      · exact ih (fun x hx' => hf x (by simp [hx'])) hcs (fun v hv => hx v (by simp [hv])) v hv

theorem Keeps.keep {g : NttOperator → List Nat → Timed (List Nat)} {op : NttOperator} (h : Keeps g op) {d : Nat} (hd : op.size = d) (v v' : List Nat) (hv : v.length = d)
    (hr : (g op v).result = some v') : v'.length = d := by
  obtain ⟨a, e1, e2⟩ := h v (by omega)
  rw [e1] at hr; cases hr; omega

theorem targetRows_shape (hw : c.WF b n) {vt : Bool} {k : Nat} {rows out : List (List Nat)} (hr : ∀ x ∈ rows, x.length = c.degree)
    (h : (targetRows r vt rows (c.ops.drop k)).result = some out) : out.length = rows.length ∧ ∀ x ∈ out, x.length = c.degree := by
  unfold targetRows at h
  split at h
  · cases h; exact ⟨rfl, hr⟩
  · refine ite_result (branch_step h) (fun h => ?_) fun h => ?_
    · exact zip_shape2 (fun op ho v v' hv hr => (forward_all hw op (List.mem_of_mem_drop ho)).1.keeps.keep (op_size hw (List.mem_of_mem_drop ho)) v v' hv hr) h hr
    · exact zip_shape2 (fun op ho v v' hv hr => (forward_all_ct hw op (List.mem_of_mem_drop ho)).1.keep (op_size hw (List.mem_of_mem_drop ho)) v v' hv hr) h hr

/-- What `Scaler::new` establishes. -/
theorem scaler_inv {src dst : Context} {f : ScalingFactor} {s : Scaler} (h : Scaler.new src dst f = some (.ok s)) :
    s.src = src ∧ s.dst = dst ∧ src.degree = dst.degree ∧ s.ncommon ≤ src.q.length ∧ s.ncommon ≤ dst.q.length ∧ RnsScaler.new src.rns dst.rns f = some s.scaler := by
  unfold Scaler.new at h
  split at h
  · cases h
  · rename_i hd
    simp only [Option.bind_eq_bind, Option.bind_eq_some_iff] at h
    obtain ⟨sc, e1, e2⟩ := h
    cases e2
    have : ((src.q.zip dst.q).takeWhile fun x => x.1 = x.2).length ≤ (src.q.zip dst.q).length := (List.takeWhile_prefix _).length_le
    rw [List.length_zip] at this
    refine ⟨rfl, rfl, by simpa using hd, ?_, ?_, e1⟩ <;> simp only <;> split <;> omega

theorem mapLoop_all {f : α → Timed β} {P : β → Prop} (hf : ∀ a y, (f a).result = some y → P y) {l : List α} {l' : List β} (h : (mapLoop f l).result = some l') : ∀ y ∈ l', P y := by
  induction l generalizing l' with
  | nil => unfold mapLoop at h; obtain rfl : [] = l' := Option.some.inj (branch_step h); simp
  | cons x xs ih =>
    unfold mapLoop at h
    obtain ⟨y, hy, h⟩ := Release.bind_result (branch_step h)
    obtain ⟨ys, hys, h⟩ := Release.bind_result h
    obtain rfl : y :: ys = l' := Option.some.inj h
    intro z hz
    rcases List.mem_cons.1 hz with rfl | hz
    · exact hf _ _ hy
    · exact ih hys z hz

theorem scale_made {src dst : Context} {n' : Nat} {f : ScalingFactor} {s : Scaler} (hd : dst.WF b n') (hn : Scaler.new src dst f = some (.ok s)) {p x : Poly r}
    (hp : RightShape p) (h : (Release.scale s p).result = some (.ok x)) : RightShape x ∧ x.ctx = dst := by
  obtain ⟨e1, rfl, e3, e4, e5, -⟩ := scaler_inv hn
  unfold Release.scale at h
  split at h
  · cases h
  rename_i hc
  rw [not_not] at hc
  have hdeg : p.ctx.degree = s.dst.degree := by rw [hc, e1, e3]
  have ht : (p.coeffs.take s.ncommon).length = s.ncommon := by
    rw [List.length_take, hp.1, hc, e1]; omega
  have hr : ∀ x ∈ p.coeffs.take s.ncommon, x.length = s.dst.degree := fun x hx => (hp.2 x (List.mem_of_mem_take hx)).trans hdeg
  have h := branch_step h
  by_cases hlt : s.ncommon < s.dst.q.length
  · rw [if_pos (by simpa using hlt)] at h
    obtain ⟨rows, -, h⟩ := Release.bind_result h
    obtain ⟨cols, h1, h⟩ := Release.bind_result h
    obtain ⟨newCols, h2, h⟩ := Release.bind_result h
    obtain ⟨newRows, h3, h⟩ := Release.bind_result h
    obtain ⟨out, h4, h⟩ := Release.bind_result h
    cases h
    have l2 : newCols.length = p.ctx.degree := by rw [mapLoop_length h2, mapLoop_length h1, List.length_range]
    have l3 := mapLoop_length h3
    rw [List.length_range] at l3
    obtain ⟨l4, l5⟩ := targetRows_shape hd (fun y hy => by
      rw [mapLoop_all (P := fun y => y.length = newCols.length) (fun a y hy => mapLoop_length hy) h3 y hy, l2, hdeg]) h4
    refine ⟨⟨?_, fun y hy => ?_⟩, rfl⟩
    · show (p.coeffs.take s.ncommon ++ out).length = _
      rw [List.length_append, ht, l4, l3]; show s.ncommon + (s.dst.q.length - s.ncommon) = s.dst.q.length; omega
    · rcases List.mem_append.1 hy with hy | hy
      · exact hr y hy
      · exact l5 y hy
  · rw [if_neg (by simpa using hlt)] at h
    cases h
    exact ⟨⟨by show (p.coeffs.take s.ncommon).length = s.dst.q.length; omega, hr⟩, rfl⟩

theorem dotLoop_length (vt : Bool) (degree : Nat) {q : List Modulus} {maxAcc : List Nat} (hm : maxAcc.length = q.length) (l : List (List Nat × List Nat))
    (numAcc acc : List Nat) (hn : numAcc.length = q.length) (ha : acc.length = q.length * degree) {out : List Nat} (h : dotLoop vt degree q maxAcc l numAcc acc = .returned out) :
    out.length = q.length * degree := by
  induction l generalizing numAcc acc with
  | nil => cases h; exact ha
  | cons x l ih =>
    obtain ⟨x, y⟩ := x
    unfold dotLoop at h
    rcases fmaChecked_cases acc x y with h1 | ⟨o, h1, hl⟩
    · rw [h1] at h; cases h
    · obtain ⟨r, e1, e2, e3⟩ := dotStep_ok vt degree hm q.length 0 numAcc o (by omega) hn (by omega)
      rw [h1, ret_bind, e1, ret_bind] at h
      exact ih _ _ e2 e3 h

theorem dotLoopPlain_length (l : List (List Nat × List Nat)) (acc : List Nat) {out : List Nat} (h : dotLoopPlain l acc = .returned out) : out.length = acc.length := by
  induction l generalizing acc with
  | nil => cases h; rfl
  | cons x l ih =>
    obtain ⟨x, y⟩ := x
    unfold dotLoopPlain at h
    rcases fmaChecked_cases acc x y with h1 | ⟨o, h1, hl⟩
    · rw [h1] at h; cases h
    · rw [h1, ret_bind] at h
      rw [ih _ h, hl]

theorem bind_returned {x : Outcome α} {f : α → Outcome β} {y : β} (h : (x >>= f) = .returned y) : ∃ a, x = .returned a ∧ f a = .returned y := by
  cases x with
  | returned a => exact ⟨a, rfl, h⟩
  | panicked => cases h
  | undefined => cases h

theorem dotProduct_shape {ps ps' : List (Poly .ntt)} {x : Poly .ntt} (h : dotProduct ps ps' = .returned (.ok x)) : RightShape x ∧ ∃ p ∈ ps, x.ctx = p.ctx := by
  unfold dotProduct at h
  split at h
  · cases h
  split at h
  · cases h
  split at h
  · cases h
  rename_i first rest _ _
  split at h
  · cases h
  simp only [] at h
  split at h
  · cases h
  have fin : ∀ {rows : List (List Nat)} {vt : Bool} {a : List Nat}, a.length = first.ctx.q.length * first.ctx.degree → safe (dotFinish vt first.ctx a) = .returned rows →
      rows.length = first.ctx.q.length ∧ ∀ r ∈ rows, r.length = first.ctx.degree := by
    intro rows vt a ha hr
    have hr : (dotFinish vt first.ctx a).result = some rows := by
      unfold safe at hr
      split at hr
      · cases hr; assumption
      · cases hr
    obtain ⟨s1, s2⟩ := splitRows_shape first.ctx.degree first.ctx.q.length a ha
    unfold dotFinish at hr
    refine ⟨by rw [mapLoop_length hr, List.length_zip, s1, min_self], ?_⟩
    have : ∀ (l : List (List Nat × Modulus)) (rows : List (List Nat)), (∀ x ∈ l, x.1.length = first.ctx.degree) →
        (mapLoop (fun x : List Nat × Modulus => mapLoop (fun y => if vt then reduceU128Vt x.2 y else reduceU128 x.2 y) x.1) l).result = some rows → ∀ r ∈ rows, r.length = first.ctx.degree := by
      intro l
      induction l with
      | nil => intro rows _ h; unfold mapLoop at h; obtain rfl : [] = rows := Option.some.inj (branch_step h); simp
      | cons x xs ih =>
        intro rows hl h
        unfold mapLoop at h
        obtain ⟨y, hy, h2⟩ := Release.bind_result (branch_step h)
        obtain ⟨ys, hys, h3⟩ := Release.bind_result h2
        obtain rfl : y :: ys = rows := Option.some.inj h3
        intro z hz
        rcases List.mem_cons.1 hz with rfl | hz
        · rw [mapLoop_length hy]; exact hl x (by simp)
        · exact ih ys (fun x hx => hl x (by simp [hx])) hys z hz
    exact this _ _ (fun x hx => s2 _ (List.of_mem_zip hx).1) hr
  split at h <;> obtain ⟨a, h1, h2⟩ := bind_returned h <;> obtain ⟨rows, h3, h4⟩ := bind_returned h2 <;> cases h4
  · exact ⟨fin (dotLoop_length _ _ (by simp) _ _ _ (by simp) (by simp) h1) h3, first, by simp, rfl⟩
  · exact ⟨fin ((dotLoopPlain_length _ _ h1).trans (by simp)) h3, first, by simp, rfl⟩

theorem made_shape (hb : b.OK) {p : Poly r} (h : Made b p) : RightShape p ∧ ∃ n, p.ctx.WF b n := by
  have ctx : ∀ {r s : Rep} {p : Poly r} {x : Poly s}, (RightShape p ∧ ∃ n, p.ctx.WF b n) → RightShape x ∧ x.ctx = p.ctx → RightShape x ∧ ∃ n, x.ctx.WF b n :=
    fun hp hx => ⟨hx.1, by rw [hx.2]; exact hp.2⟩
  have new : ∀ {r : Rep} {c : Context} {x : Poly r}, MadeContext b c → RightShape x ∧ x.ctx = c → RightShape x ∧ ∃ n, x.ctx.WF b n :=
    fun hc hx => ⟨hx.1, by rw [hx.2]; exact made_context hb hc⟩
  induction h with
  | zero hc => exact new hc ⟨zero_shape _, rfl⟩
  | random hc h => exact new hc (random_shape h)
  | small hc h => exact new hc (small_shape h)
  | fromU64 hc h => exact new hc (tryFromU64_shape h)
  | fromU64Ntt hc h => exact new hc (fromU64Ntt_shape h)
  | fromI64 hc h => exact new hc (tryFromI64_shape h)
  | allowVt hp ih => exact ih
  | disallowVt hp ih => exact ih
  | intoNtt hp h ih =>
    obtain ⟨y, h1, h2⟩ := Release.bind_result h
    obtain ⟨n, hw⟩ := ih.2
    obtain ⟨y', e1, e2, e3, -⟩ := forward_matrix hw ih.1
    obtain rfl : y' = y := Option.some.inj (e1.symm.trans h1)
    obtain ⟨s1, s2⟩ := fromParts_shape e2 h2
    exact ctx ih ⟨s1, s2.trans e3⟩
  | intoNttShoup hp h ih =>
    obtain ⟨y, h1, h2⟩ := Release.bind_result h
    obtain ⟨z, h3, h4⟩ := Release.bind_result h2
    obtain ⟨n, hw⟩ := ih.2
    obtain ⟨y', e1, e2, e3, -⟩ := forward_matrix hw ih.1
    obtain rfl : y' = y := Option.some.inj (e1.symm.trans h1)
    obtain ⟨s1, s2⟩ := computeShoup_shape e2 h3
    obtain ⟨s3, s4⟩ := fromParts_shape s1 h4
    exact ctx ih ⟨s3, s4.trans (s2.trans e3)⟩
  | toPowerBasis hp h ih =>
    obtain ⟨y, h1, h2⟩ := Release.bind_result h
    obtain ⟨n, hw⟩ := ih.2
    obtain ⟨y', e1, e2, e3, -⟩ := backward_matrix hw ih.1
    obtain rfl : y' = y := Option.some.inj (e1.symm.trans h1)
    obtain ⟨s1, s2⟩ := fromParts_shape e2 h2
    exact ctx ih ⟨s1, s2.trans e3⟩
  | @shoupToNtt p x hp h ih => exact ctx ih (fromParts_shape (p := ({ p with shoup := none } : Poly .nttShoup)) ih.1 h)
  | add hp hp' h ih => exact ctx ih (addAssign_shape ih.1 h)
  | sub hp hp' h ih => exact ctx ih (subAssign_shape ih.1 h)
  | mul hp hp' h ih => exact ctx ih (mulAssign_shape ih.1 h)
  | mulShoup hp hp' h ih => exact ctx ih (mulAssignShoup_shape ih.1 h)
  | mulScalar hp h ih => exact ctx ih (mulScalar_shape ih.1 h)
  | neg hp h ih => exact ctx ih (polyNeg_shape ih.1 h)
  | substitute hp h ih => exact ctx ih (substitute_shape h)
  | inversePowerOfX hp h ih => exact ctx ih (inversePower_shape h)
  | switchDown hp h ih =>
    obtain ⟨n, hw⟩ := ih.2
    obtain ⟨s1, s2⟩ := switchDown_made hw ih.1 h
    exact ⟨s1, n, s2⟩
  | switchDownTo hp h ih =>
    obtain ⟨n, hw⟩ := ih.2
    unfold Release.switchDownTo at h
    split at h
    · cases h
    · obtain ⟨y, h1, h⟩ := Release.bind_result h
      split at h
      · cases h
      · split at h
        · cases h
        · cases h
          obtain ⟨s1, s2⟩ := switchDownLoop_made _ hw ih.1 h1
          exact ⟨s1, n, s2⟩
  | scale hs hd hn hp h ih =>
    obtain ⟨n, hw⟩ := made_context hb hd
    obtain ⟨s1, s2⟩ := scale_made hw hn ih.1 h
    exact ⟨s1, n, by rw [s2]; exact hw⟩
  | dot hp hp' h ih =>
    obtain ⟨s1, p, hp, s2⟩ := dotProduct_shape h
    exact ctx (ih p hp) ⟨s1, s2⟩

/-! ## Other functions on polynomials -/

theorem lazyConstant_eq (h : c.WF b n) (v : List Nat) :
    if v.length = c.degree then ∃ mem, lazyConstant v c = .returned (Array2.standard c.q.length c.degree mem) ∧ mem.length = c.q.length * c.degree else lazyConstant v c = .panicked := by
  have hl := q_length h
  split
  · rename_i hv
    obtain ⟨mem, e1, e2⟩ := lazyConstantRows_ok (c.q.zip c.ops) 0 (Array2.standard c.q.length c.degree (List.replicate (c.q.length * c.degree) 0))
      ⟨rfl, rfl, rfl, by simp [Array2.standard]⟩ hv (fun x hx => lazy_all h x.2 (List.of_mem_zip hx).2)
    exact ⟨mem, e1, by rw [e2]; simp [Array2.standard]⟩
  · rename_i hv
    unfold lazyConstant
    have hne := h.level.ne_nil
    cases ho : c.ops with
    | nil => exact absurd ho hne
    | cons op ops =>
      cases hq : c.q with
      | nil => rw [hq, ho] at hl; simp at hl
      | cons q qs =>
        rw [List.zip_cons_cons]
        unfold lazyConstantRows
        rw [if_pos (show 0 < (Array2.standard (q :: qs).length c.degree _).rows by simp [Array2.standard])]
        exact if_pos hv

theorem polyScale_ok {src dst : Context} {m : Nat} (hs : src.WF b n) (hd : dst.WF b m) {f : ScalingFactor} {s : Scaler} (hn : Scaler.new src dst f = some (.ok s)) (r : Rep) (vt : Bool)
    {v : List Nat} (hv : v.length = src.q.length * src.degree) :
    ∃ mem, polyScale r s vt (Array2.standard src.q.length src.degree v) = .returned (Array2.standard dst.q.length dst.degree mem) ∧ mem.length = dst.q.length * dst.degree := by
  obtain ⟨rfl, rfl, e3, e4, e5, e6⟩ := scaler_inv hn
  have hT := tables_of_new hs.level.rns hd.level.rns e6
  rw [hs.level.rns_moduli, hd.level.rns_moduli, moduli_length hs, moduli_length hd] at hT
  have hinit : (scaleInit s (Array2.standard s.src.q.length s.src.degree v)) = Array2.standard s.dst.q.length s.dst.degree (v.take (s.ncommon * s.dst.degree) ++ List.replicate ((s.dst.q.length - s.ncommon) * s.dst.degree) 0) := rfl
  have hil : (v.take (s.ncommon * s.dst.degree) ++ List.replicate ((s.dst.q.length - s.ncommon) * s.dst.degree) 0).length = s.dst.q.length * s.dst.degree := by
    rw [List.length_append, List.length_take, List.length_replicate, hv, e3, min_eq_left (Nat.mul_le_mul_right _ e4), ← Nat.add_mul]
    congr 1; omega
  unfold polyScale
  split
  · rename_i hlt
    have h1 : ∃ mem, (if r = .powerBasis then (pure (Array2.standard s.src.q.length s.src.degree v) : Outcome Array2) else nttBackward s.src.ops vt (Array2.standard s.src.q.length s.src.degree v)) =
        .returned (Array2.standard s.src.q.length s.src.degree mem) ∧ mem.length = s.src.q.length * s.src.degree := by
      split
      · exact ⟨v, rfl, hv⟩
      · have hR : RowMajor (Array2.standard s.src.q.length s.src.degree v) := ⟨rfl, rfl, rfl, by simp [Array2.standard, hv]⟩
        unfold nttBackward
        split
        · obtain ⟨mem, k1, k2⟩ := rowsVt_shape s.src.ops 0 _ hR (backward_all hs)
          exact ⟨mem, k1, k2.trans hv⟩
        · obtain ⟨mem, k1, k2⟩ := rowsCt_shape s.src.ops 0 _ hR (backward_all_ct hs)
          exact ⟨mem, k1, k2.trans hv⟩
    obtain ⟨m1, k1, k2⟩ := h1
    obtain ⟨m2, k3, k4⟩ := scaleColumns_ok hT (src := Array2.standard s.src.q.length s.src.degree m1) ⟨rfl, rfl, rfl, by simp [Array2.standard, k2]⟩ rfl rfl hlt s.src.degree 0
      (by simp [Array2.standard]) (scaleInit s (Array2.standard s.src.q.length s.src.degree v))
    rw [hinit] at k3 k4
    have k4 : m2.length = s.dst.q.length * s.dst.degree := k4.trans hil
    have hR : RowMajor (Array2.standard s.dst.q.length s.dst.degree m2) := ⟨rfl, rfl, rfl, by simp [Array2.standard, k4]⟩
    by_cases hr : r = .powerBasis
    · rw [if_pos hr] at k1
      simp only [if_pos hr]
      rw [k1, ret_bind, hinit, k3, ret_bind]
      exact ⟨m2, rfl, k4⟩
    · rw [if_neg hr] at k1
      simp only [if_neg hr]
      rw [k1, ret_bind, hinit, k3, ret_bind]
      split
      · obtain ⟨mem, j1, j2⟩ := rowsVt_shape (s.dst.ops.drop s.ncommon) s.ncommon _ hR fun op ho => forward_all hd op (List.mem_of_mem_drop ho)
        exact ⟨mem, j1, j2.trans k4⟩
      · obtain ⟨mem, j1, j2⟩ := rowsCt_shape (s.dst.ops.drop s.ncommon) s.ncommon _ hR fun op ho => forward_all_ct hd op (List.mem_of_mem_drop ho)
        exact ⟨mem, j1, j2.trans k4⟩
  · exact ⟨_, rfl, hil⟩

end Fhe.Memory
