import Verif.Lemmas.MemoryDot
import Verif.Spec.Memory
/-! The shape of the polynomials that a release build makes. -/
namespace Fhe.Memory
open Release

variable {α β : Type}

theorem branch_step {c : Prop} [Decidable c] {f : Bool → Timed α} {x : α} (h : ((branchOn c) >>= f).result = some x) : (f (decide c)).result = some x := by
  rwa [bind_result_eq (show (branchOn c).result = some (decide c) from rfl)] at h

theorem mapLoop_length {f : α → Timed β} {l : List α} {l' : List β} (h : (mapLoop f l).result = some l') : l'.length = l.length := by
  induction l generalizing l' with
  | nil => unfold mapLoop at h; obtain rfl : [] = l' := Option.some.inj (branch_step h); rfl
  | cons x xs ih =>
    unfold mapLoop at h
    obtain ⟨y, -, h⟩ := Release.bind_result (branch_step h)
    obtain ⟨ys, hys, h⟩ := Release.bind_result h
    obtain rfl : y :: ys = l' := Option.some.inj h
    simp [ih hys]

theorem zipLoop_length {f : α → β → Timed α} {a : List α} {b : List β} {l' : List α} (h : (zipLoop f a b).result = some l') : l'.length = a.length := by
  induction a generalizing b l' with
  | nil => unfold zipLoop at h; obtain rfl : [] = l' := Option.some.inj (branch_step h); rfl
  | cons x xs ih =>
    cases b with
    | nil => unfold zipLoop at h; obtain rfl : x :: xs = l' := Option.some.inj (branch_step h); rfl
    | cons y ys =>
      unfold zipLoop at h
      obtain ⟨c, -, h⟩ := Release.bind_result (branch_step h)
      obtain ⟨cs, hcs, h⟩ := Release.bind_result h
      obtain rfl : c :: cs = l' := Option.some.inj h
      simp [ih hcs]

/-- A property of the rows that each step keeps. -/
theorem zipLoop_all {P : α → Prop} {f : α → β → Timed α} (hf : ∀ v x v', P v → (f v x).result = some v' → P v') {a : List α} {b : List β} {l' : List α}
    (ha : ∀ v ∈ a, P v) (h : (zipLoop f a b).result = some l') : ∀ v ∈ l', P v := by
  induction a generalizing b l' with
  | nil => unfold zipLoop at h; obtain rfl : [] = l' := Option.some.inj (branch_step h); simp
  | cons x xs ih =>
    cases b with
    | nil => unfold zipLoop at h; obtain rfl : x :: xs = l' := Option.some.inj (branch_step h); exact ha
    | cons y ys =>
      unfold zipLoop at h
      obtain ⟨c, hc, h⟩ := Release.bind_result (branch_step h)
      obtain ⟨cs, hcs, h⟩ := Release.bind_result h
      obtain rfl : c :: cs = l' := Option.some.inj h
      intro v hv
      rcases List.mem_cons.1 hv with rfl | hv
      · exact hf _ _ _ (ha x (by simp)) hc
      · exact ih (fun v hv => ha v (by simp [hv])) hcs v hv

theorem chunkLoop_length {f : Nat → Nat → Timed Nat} {a b l' : List Nat} (h : (chunkLoop f a b).result = some l') : l'.length = a.length := by
  induction hn : a.length using Nat.strong_induction_on generalizing a b l' with
  | _ n ih =>
    rw [chunkLoop] at h
    split at h
    · rename_i hc
      obtain ⟨c, hc', h⟩ := Release.bind_result (branch_step h)
      obtain ⟨cs, hcs, h⟩ := Release.bind_result h
      obtain rfl : c ++ cs = l' := Option.some.inj h
      have := ih (a.drop 16).length (by rw [List.length_drop]; omega) hcs rfl
      rw [List.length_append, zipLoop_length hc', this, List.length_take, List.length_drop]; omega
    · rw [← hn]; exact zipLoop_length (branch_step h)

/-! ## Vectors -/

theorem ite_result {c : Prop} [Decidable c] {t u : Timed α} {x : α} {P : Prop} (h : (if c then t else u).result = some x) (h1 : t.result = some x → P) (h2 : u.result = some x → P) : P := by
  split at h
  · exact h1 h
  · exact h2 h

variable {m : Modulus} {a b c l' : List Nat}
theorem addVec_length (h : (addVec m a b).result = some l') : l'.length = a.length := zipLoop_length h
theorem addVecVt_length (h : (addVecVt m a b).result = some l') : l'.length = a.length := chunkLoop_length h
theorem subVec_length (h : (subVec m a b).result = some l') : l'.length = a.length := zipLoop_length h
theorem subVecVt_length (h : (subVecVt m a b).result = some l') : l'.length = a.length := chunkLoop_length h
theorem mulVec_length (h : (mulVec m a b).result = some l') : l'.length = a.length := ite_result (branch_step h) zipLoop_length zipLoop_length
theorem mulVecVt_length (h : (mulVecVt m a b).result = some l') : l'.length = a.length := ite_result (branch_step h) zipLoop_length zipLoop_length
theorem mulShoupVec_length (h : (mulShoupVec m a b c).result = some l') : l'.length = a.length := zipLoop_length h
theorem mulShoupVecVt_length (h : (mulShoupVecVt m a b c).result = some l') : l'.length = a.length := zipLoop_length h
theorem scalarMulVec_length {x : Nat} (h : (scalarMulVec m a x).result = some l') : l'.length = a.length := by
  obtain ⟨_, -, h⟩ := Release.bind_result h; exact mapLoop_length h
theorem scalarMulVecVt_length {x : Nat} (h : (scalarMulVecVt m a x).result = some l') : l'.length = a.length := by
  obtain ⟨_, -, h⟩ := Release.bind_result h; exact mapLoop_length h
theorem negVec_length (h : (negVec m a).result = some l') : l'.length = a.length := mapLoop_length h
theorem negVecVt_length (h : (negVecVt m a).result = some l') : l'.length = a.length := mapLoop_length h
theorem reduceVec_length (h : (reduceVec m a).result = some l') : l'.length = a.length := mapLoop_length h
theorem reduceVecVt_length (h : (reduceVecVt m a).result = some l') : l'.length = a.length := mapLoop_length h
theorem copyPrefix_length (h : (copyPrefix a b).result = some l') : l'.length = a.length := by
  obtain ⟨_, h1, h⟩ := Release.bind_result h
  obtain rfl : b ++ a.drop b.length = l' := Option.some.inj h
  have : b.length ≤ a.length := by
    by_contra hc
    simp [Release.assert, hc] at h1
  rw [List.length_append, List.length_drop]; omega

/-! ## Rows -/

theorem rowLoop_shape {vt : Bool} {fVt f : Modulus → List Nat → List Nat → Timed (List Nat)} (h1 : ∀ m a b l', (fVt m a b).result = some l' → l'.length = a.length)
    (h2 : ∀ m a b l', (f m a b).result = some l' → l'.length = a.length) {x p : List (List Nat)} {q : List Modulus} {rows : List (List Nat)}
    (h : (rowLoop vt fVt f x p q).result = some rows) {d : Nat} (hx : ∀ r ∈ x, r.length = d) : rows.length = x.length ∧ ∀ r ∈ rows, r.length = d := by
  have h := branch_step h
  refine ite_result h (fun h => ?_) fun h => ?_
  · exact ⟨zipLoop_length h, zipLoop_all (P := fun r => r.length = d) (fun v x v' hv hr => (h1 _ _ _ _ hr).trans hv) hx h⟩
  · exact ⟨zipLoop_length h, zipLoop_all (P := fun r => r.length = d) (fun v x v' hv hr => (h2 _ _ _ _ hr).trans hv) hx h⟩

theorem zip_shape {f : List Nat → β → Timed (List Nat)} (hf : ∀ v x v', (f v x).result = some v' → v'.length = v.length) {x : List (List Nat)} {y : List β} {rows : List (List Nat)}
    (h : (zipLoop f x y).result = some rows) {d : Nat} (hx : ∀ r ∈ x, r.length = d) : rows.length = x.length ∧ ∀ r ∈ rows, r.length = d :=
  ⟨zipLoop_length h, zipLoop_all (P := fun r => r.length = d) (fun v x v' hv hr => (hf _ _ _ hr).trans hv) hx h⟩

open Spec (RightShape)

variable {r : Rep}

theorem zeroRows_shape (n d : Nat) : (zeroRows n d).length = n ∧ ∀ x ∈ zeroRows n d, x.length = d := by
  unfold zeroRows
  exact ⟨List.length_replicate, fun x hx => by rw [List.eq_of_mem_replicate hx, List.length_replicate]⟩

theorem zero_shape (ctx : Context) : RightShape (Poly.zero r ctx) := zeroRows_shape _ _

theorem addAssign_shape {a p x : Poly r} (ha : RightShape a) (h : (addAssign a p).result = some x) : RightShape x ∧ x.ctx = a.ctx := by
  obtain ⟨_, -, h⟩ := Release.bind_result h
  obtain ⟨rows, h1, h⟩ := Release.bind_result h
  cases h
  obtain ⟨e1, e2⟩ := rowLoop_shape (fun _ _ _ _ => addVecVt_length) (fun _ _ _ _ => addVec_length) h1 ha.2
  exact ⟨⟨e1.trans ha.1, e2⟩, rfl⟩
theorem subAssign_shape {a p x : Poly r} (ha : RightShape a) (h : (subAssign a p).result = some x) : RightShape x ∧ x.ctx = a.ctx := by
  obtain ⟨_, -, h⟩ := Release.bind_result h
  obtain ⟨rows, h1, h⟩ := Release.bind_result h
  cases h
  obtain ⟨e1, e2⟩ := rowLoop_shape (fun _ _ _ _ => subVecVt_length) (fun _ _ _ _ => subVec_length) h1 ha.2
  exact ⟨⟨e1.trans ha.1, e2⟩, rfl⟩
theorem mulAssign_shape {a p x : Poly .ntt} (ha : RightShape a) (h : (mulAssign a p).result = some x) : RightShape x ∧ x.ctx = a.ctx := by
  obtain ⟨_, -, h⟩ := Release.bind_result h
  obtain ⟨_, -, h⟩ := Release.bind_result h
  obtain ⟨rows, h1, h⟩ := Release.bind_result h
  cases h
  obtain ⟨e1, e2⟩ := rowLoop_shape (fun _ _ _ _ => mulVecVt_length) (fun _ _ _ _ => mulVec_length) h1 ha.2
  exact ⟨⟨e1.trans ha.1, e2⟩, rfl⟩
theorem mulAssignShoup_shape {a x : Poly .ntt} {p : Poly .nttShoup} (ha : RightShape a) (h : (mulAssignShoup a p).result = some x) : RightShape x ∧ x.ctx = a.ctx := by
  obtain ⟨_, -, h⟩ := Release.bind_result h
  obtain ⟨ps, -, h⟩ := Release.bind_result h
  have h := branch_step h
  refine ite_result h (fun h => ?_) fun h => ?_ <;> obtain ⟨rows, h1, h⟩ := Release.bind_result h <;> cases h
  · obtain ⟨e1, e2⟩ := zip_shape (fun _ _ _ => mulShoupVecVt_length) h1 ha.2
    exact ⟨⟨e1.trans ha.1, e2⟩, rfl⟩
  · obtain ⟨e1, e2⟩ := zip_shape (fun _ _ _ => mulShoupVec_length) h1 ha.2
    exact ⟨⟨e1.trans ha.1, e2⟩, rfl⟩
theorem mulScalar_shape {a x : Poly r} {s : Nat} (ha : RightShape a) (h : (mulScalar a s).result = some x) : RightShape x ∧ x.ctx = a.ctx := by
  obtain ⟨_, -, h⟩ := Release.bind_result h
  have h := branch_step h
  refine ite_result h (fun h => ?_) fun h => ?_ <;> obtain ⟨rows, h1, h⟩ := Release.bind_result h <;> cases h
  · obtain ⟨e1, e2⟩ := zip_shape (fun _ _ _ => scalarMulVecVt_length) h1 ha.2
    exact ⟨⟨e1.trans ha.1, e2⟩, rfl⟩
  · obtain ⟨e1, e2⟩ := zip_shape (fun _ _ _ => scalarMulVec_length) h1 ha.2
    exact ⟨⟨e1.trans ha.1, e2⟩, rfl⟩
theorem polyNeg_shape {a x : Poly r} (ha : RightShape a) (h : (polyNeg a).result = some x) : RightShape x ∧ x.ctx = a.ctx := by
  obtain ⟨_, -, h⟩ := Release.bind_result h
  have h := branch_step h
  refine ite_result h (fun h => ?_) fun h => ?_ <;> obtain ⟨rows, h1, h⟩ := Release.bind_result h <;> cases h
  · obtain ⟨e1, e2⟩ := zip_shape (fun _ _ _ => negVecVt_length) h1 ha.2
    exact ⟨⟨e1.trans ha.1, e2⟩, rfl⟩
  · obtain ⟨e1, e2⟩ := zip_shape (fun _ _ _ => negVec_length) h1 ha.2
    exact ⟨⟨e1.trans ha.1, e2⟩, rfl⟩

theorem fromParts_shape {s : Rep} {p : Poly s} {x : Poly r} (hp : RightShape p) (h : (fromParts r p).result = some x) : RightShape x ∧ x.ctx = p.ctx := by
  unfold fromParts at h
  split at h
  · split at h
    · obtain ⟨p', h1, h⟩ := Release.bind_result h
      cases h
      obtain ⟨sh, -, h1⟩ := Release.bind_result h1
      cases h1
      exact ⟨hp, rfl⟩
    · cases h; exact ⟨hp, rfl⟩
  · cases h; exact ⟨hp, rfl⟩

theorem computeShoup_shape {p x : Poly r} (hp : RightShape p) (h : (computeShoup p).result = some x) : RightShape x ∧ x.ctx = p.ctx := by
  obtain ⟨sh, -, h⟩ := Release.bind_result h
  cases h
  exact ⟨hp, rfl⟩

theorem permRow_length {row js ks out l' : List Nat} (h : (permRow row js ks out).result = some l') : l'.length = out.length := by
  induction js generalizing ks out with
  | nil => unfold permRow at h; obtain rfl : out = l' := Option.some.inj (branch_step h); rfl
  | cons j js ih =>
    cases ks with
    | nil => unfold permRow at h; obtain rfl : out = l' := Option.some.inj (branch_step h); rfl
    | cons k ks =>
      unfold permRow at h
      obtain ⟨v, -, h⟩ := Release.bind_result (branch_step h)
      obtain ⟨_, -, h⟩ := Release.bind_result h
      rw [ih h]; simp

theorem substNtt_shape {ctx : Context} {e : SubstExponent} {rows out : List (List Nat)} (h : (substNtt ctx e rows).result = some out) :
    out.length = ctx.q.length ∧ ∀ x ∈ out, x.length = ctx.degree := by
  obtain ⟨z1, z2⟩ := zeroRows_shape ctx.q.length ctx.degree
  obtain ⟨e1, e2⟩ := zip_shape (fun _ _ _ => permRow_length) h z2
  exact ⟨e1.trans z1, e2⟩

theorem substCell_length {d power j : Nat} {row l' : List Nat} {x : Modulus × List Nat} (h : (substCell d power j row x).result = some l') : l'.length = row.length := by
  obtain ⟨_, -, h⟩ := Release.bind_result h
  obtain ⟨_, -, h⟩ := Release.bind_result h
  refine ite_result (branch_step h) (fun h => ?_) fun h => ?_ <;> obtain ⟨_, -, h⟩ := Release.bind_result h <;> cases h <;> simp

theorem substLoop_shape {d e : Nat} {q : List Modulus} {rows : List (List Nat)} (left j power : Nat) {out out' : List (List Nat)} {D : Nat} (ho : ∀ x ∈ out, x.length = D)
    (h : (substLoop d e q rows left j power out).result = some out') : out'.length = out.length ∧ ∀ x ∈ out', x.length = D := by
  induction left generalizing j power out with
  | zero => unfold substLoop at h; obtain rfl : out = out' := Option.some.inj (branch_step h); exact ⟨rfl, ho⟩
  | succ left ih =>
    unfold substLoop at h
    obtain ⟨o, h1, h⟩ := Release.bind_result (branch_step h)
    obtain ⟨e1, e2⟩ := zip_shape (fun _ _ _ => substCell_length) h1 ho
    obtain ⟨e3, e4⟩ := ih _ _ e2 h
    exact ⟨e3.trans e1, e4⟩

theorem substitute_shape {p x : Poly r} {e : SubstExponent} (h : (substitute p e).result = some x) : RightShape x ∧ x.ctx = p.ctx := by
  unfold substitute at h
  cases r with
  | powerBasis =>
    obtain ⟨c, h1, h⟩ := Release.bind_result h
    cases h
    obtain ⟨z1, z2⟩ := zeroRows_shape p.ctx.q.length p.ctx.degree
    obtain ⟨e1, e2⟩ := substLoop_shape _ _ _ z2 h1
    exact ⟨⟨e1.trans z1, e2⟩, rfl⟩
  | ntt =>
    obtain ⟨c, h1, h⟩ := Release.bind_result h
    cases h
    exact ⟨substNtt_shape h1, rfl⟩
  | nttShoup =>
    obtain ⟨c, h1, h⟩ := Release.bind_result h
    obtain ⟨_, -, h⟩ := Release.bind_result h
    obtain ⟨_, -, h⟩ := Release.bind_result h
    cases h
    exact ⟨substNtt_shape h1, rfl⟩

theorem shiftLoop_length {d s : Nat} {qi : Modulus} {row : List Nat} (left k : Nat) {out l' : List Nat} (h : (shiftLoop d s qi row left k out).result = some l') : l'.length = out.length := by
  induction left generalizing k out with
  | zero => unfold shiftLoop at h; obtain rfl : out = l' := Option.some.inj (branch_step h); rfl
  | succ left ih =>
    unfold shiftLoop at h
    obtain ⟨_, -, h⟩ := Release.bind_result (branch_step h)
    obtain ⟨_, -, h⟩ := Release.bind_result h
    obtain ⟨_, -, h⟩ := Release.bind_result h
    rw [ih _ h]; simp

theorem inversePower_shape {p x : Poly .powerBasis} {k : Nat} (h : (multiplyInversePowerOfX p k).result = some x) : RightShape x ∧ x.ctx = p.ctx := by
  obtain ⟨_, -, h⟩ := Release.bind_result h
  obtain ⟨rows, h1, h⟩ := Release.bind_result h
  cases h
  obtain ⟨z1, z2⟩ := zeroRows_shape p.ctx.q.length p.ctx.degree
  obtain ⟨e1, e2⟩ := zip_shape (fun _ _ _ => shiftLoop_length _ _) h1 z2
  exact ⟨⟨e1.trans z1, e2⟩, rfl⟩

theorem splitRows_shape (d n : Nat) (v : List Nat) (hv : v.length = n * d) : (Poly.splitRows d n v).length = n ∧ ∀ x ∈ Poly.splitRows d n v, x.length = d := by
  induction n generalizing v with
  | zero => exact ⟨rfl, by simp [Poly.splitRows]⟩
  | succ n ih =>
    rw [Nat.succ_mul] at hv
    obtain ⟨e1, e2⟩ := ih (v.drop d) (by rw [List.length_drop]; omega)
    refine ⟨by simp [Poly.splitRows, e1], ?_⟩
    intro x hx
    rcases List.mem_cons.1 hx with rfl | hx
    · rw [List.length_take]; omega
    · exact e2 x hx

theorem tryFromU64_shape {v : List Nat} {ctx : Context} {vt : Bool} {x : Poly .powerBasis} (h : (tryFromU64 v ctx vt).result = some (.ok x)) : RightShape x ∧ x.ctx = ctx := by
  have h := branch_step h
  refine ite_result h (fun h => ?_) fun h => ?_
  · obtain ⟨cs, h1, h⟩ := Release.bind_result h
    cases h
    refine ⟨?_, rfl⟩
    have h1 : Poly.fromShapeVec ctx.q.length ctx.degree v = some cs := h1
    unfold Poly.fromShapeVec at h1
    split at h1
    · cases h1; exact splitRows_shape _ _ _ (by assumption)
    · cases h1
  · refine ite_result (branch_step h) (fun h => ?_) fun h => ?_
    · obtain ⟨z1, z2⟩ := zeroRows_shape ctx.q.length ctx.degree
      refine ite_result (branch_step h) (fun h => ?_) fun h => ?_ <;> obtain ⟨rows, h1, h⟩ := Release.bind_result h <;> cases h
      · obtain ⟨e1, e2⟩ := zip_shape (fun v x v' hr => by obtain ⟨_, k1, k2⟩ := Release.bind_result hr; rw [reduceVecVt_length k2, copyPrefix_length k1]) h1 z2
        exact ⟨⟨e1.trans z1, e2⟩, rfl⟩
      · obtain ⟨e1, e2⟩ := zip_shape (fun v x v' hr => by obtain ⟨_, k1, k2⟩ := Release.bind_result hr; rw [reduceVec_length k2, copyPrefix_length k1]) h1 z2
        exact ⟨⟨e1.trans z1, e2⟩, rfl⟩
    · cases h

theorem tryFromI64_shape {v : List Int} {ctx : Context} {vt : Bool} {x : Poly .powerBasis} (h : (tryFromI64 v ctx vt).result = some (.ok x)) : RightShape x ∧ x.ctx = ctx := by
  refine ite_result (branch_step h) (fun h => ?_) fun h => ?_
  · obtain ⟨z1, z2⟩ := zeroRows_shape ctx.q.length ctx.degree
    obtain ⟨rows, h1, h⟩ := Release.bind_result h
    cases h
    obtain ⟨e1, e2⟩ := zip_shape (fun v x v' hr => ite_result (branch_step hr)
      (fun h => by obtain ⟨_, -, h⟩ := Release.bind_result h; exact copyPrefix_length h) fun h => by obtain ⟨_, -, h⟩ := Release.bind_result h; exact copyPrefix_length h) h1 z2
    exact ⟨⟨e1.trans z1, e2⟩, rfl⟩
  · cases h

theorem small_shape {ctx : Context} {variance : Nat} {rng : Nat → Nat} {x : Poly .powerBasis} (h : (smallPowerBasis ctx variance rng).result = some (.ok x)) : RightShape x ∧ x.ctx = ctx := by
  refine ite_result (branch_step h) (fun h => ?_) fun h => ?_
  · cases h
  · obtain ⟨s, -, h⟩ := Release.bind_result h
    split at h
    · cases h
    · exact tryFromI64_shape h

theorem switchDownRow_length {vt : Bool} {half : Nat} {last row l' : List Nat} {x : Modulus × Nat × Nat} (h : (switchDownRow vt half last row x).result = some l') : l'.length = row.length := by
  refine ite_result (branch_step h) (fun h => ?_) fun h => ?_ <;> obtain ⟨_, -, h⟩ := Release.bind_result h <;> exact zipLoop_length h

theorem switchDown_shape {p x : Poly .powerBasis} {n : Context} (hp : RightShape p) (hn : p.ctx.next = some n) (hq : n.q.length = p.ctx.q.length - 1) (hd : n.degree = p.ctx.degree)
    (h : (switchDown p).result = some (.ok x)) : RightShape x ∧ x.ctx = n := by
  unfold switchDown at h
  simp only [hn] at h
  obtain ⟨ql, -, h⟩ := Release.bind_result h
  obtain ⟨k, hk, h⟩ := Release.bind_result h
  obtain ⟨_, -, h⟩ := Release.bind_result h
  have hk' : k = p.ctx.q.length - 1 := by
    have hk : subU p.ctx.q.length 1 = some k := hk
    unfold subU at hk
    split at hk
    · exact (Option.some.inj hk).symm
    · cases hk
  have ht : ∀ r ∈ p.coeffs.take k, r.length = p.ctx.degree := fun r hr => hp.2 r (List.mem_of_mem_take hr)
  have hl : (p.coeffs.take k).length = n.q.length := by rw [List.length_take, hp.1]; omega
  refine ite_result (branch_step h) (fun h => ?_) fun h => ?_ <;> obtain ⟨_, -, h⟩ := Release.bind_result h <;> obtain ⟨rows, h1, h⟩ := Release.bind_result h <;> cases h
  all_goals
    obtain ⟨e1, e2⟩ := zip_shape (fun _ _ _ => switchDownRow_length) h1 ht
    exact ⟨⟨e1.trans hl, fun r hr => (e2 r hr).trans hd.symm⟩, rfl⟩

end Fhe.Memory
