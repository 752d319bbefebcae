import Verif.Model.Memory
import Verif.Lemmas.TimedLeak
import Verif.Lemmas.NttNew
/-! Unchecked accesses: the transforms. -/
namespace Fhe.Memory
open Release

variable {α β γ : Type}

@[simp] theorem ret_bind (a : α) (f : α → Outcome β) : (Outcome.returned a >>= f) = f a := rfl
@[simp] theorem panic_bind (f : α → Outcome β) : ((Outcome.panicked : Outcome α) >>= f) = .panicked := rfl
@[simp] theorem undef_bind (f : α → Outcome β) : ((Outcome.undefined : Outcome α) >>= f) = .undefined := rfl
@[simp] theorem pure_ret (a : α) : (pure a : Outcome α) = .returned a := rfl

theorem safe_some {t : Timed α} {a : α} (h : t.result = some a) : safe t = .returned a := by unfold safe; rw [h]
theorem safe_none {t : Timed α} (h : t.result = none) : safe t = .panicked := by unfold safe; rw [h]
theorem safe_ne {t : Timed α} : safe t ≠ .undefined := by unfold safe; split <;> nofun

theorem unchecked_lt {l : List α} {i : Nat} (h : i < l.length) : unchecked l i = .returned l[i] := by
  unfold unchecked; rw [List.getElem?_eq_getElem h]
theorem unchecked_ge {l : List α} {i : Nat} (h : l.length ≤ i) : unchecked l i = .undefined := by
  unfold unchecked; rw [List.getElem?_eq_none h]
theorem checked_lt {l : List α} {i : Nat} (h : i < l.length) : checked l i = .returned l[i] := by
  unfold checked; rw [List.getElem?_eq_getElem h]

/-! ## Runs without a panic -/

def Total (t : Timed α) : Prop := ∃ a, t.result = some a

theorem Total.bind {t : Timed α} {f : α → Timed β} (h : Total t) (hf : ∀ a, Total (f a)) : Total (t >>= f) := by
  obtain ⟨a, ha⟩ := h
  obtain ⟨b, hb⟩ := hf a
  exact ⟨b, by rw [Release.bind_some ha]; exact hb⟩
theorem Total.pure (a : α) : Total (pure a : Timed α) := ⟨a, rfl⟩
theorem Total.branch (c : Prop) [Decidable c] : Total (branchOn c) := ⟨_, rfl⟩
theorem Total.ite {c : Prop} [Decidable c] {t u : Timed α} (h : Total t) (h' : Total u) : Total (if c then t else u) := by split <;> assumption

theorem bind_result_eq {t : Timed α} {f : α → Timed β} {a : α} (h : t.result = some a) : (t >>= f).result = (f a).result := by
  rw [Release.bind_some h]

theorem total_reduce1 (x p : Nat) : Total (reduce1 x p) := ⟨_, rfl⟩
theorem total_reduce1Vt (cfg : Bool) (x p : Nat) : Total (reduce1Vt cfg x p) := by
  unfold reduce1Vt
  exact Total.ite (Total.bind (Total.branch _) fun _ => Total.ite (Total.pure _) (Total.pure _)) (total_reduce1 _ _)
theorem total_lazyMulShoup (m : Modulus) (a b c : Nat) : Total (lazyMulShoup m a b c) := ⟨_, rfl⟩
theorem total_mulShoup (m : Modulus) (a b c : Nat) : Total (mulShoup m a b c) := (total_lazyMulShoup ..).bind fun _ => total_reduce1 _ _
theorem total_lazyReduceU128 (m : Modulus) (a : Nat) : Total (lazyReduceU128 m a) := ⟨_, rfl⟩
theorem total_reduceU128 (m : Modulus) (a : Nat) : Total (reduceU128 m a) := (total_lazyReduceU128 ..).bind fun _ => total_reduce1 _ _
theorem total_reduceU128Vt (m : Modulus) (a : Nat) : Total (reduceU128Vt m a) := (total_lazyReduceU128 ..).bind fun _ => total_reduce1Vt _ _ _
theorem total_reduce3Vt (op : NttOperator) (a : Nat) : Total (reduce3Vt op a) := (total_reduce1Vt ..).bind fun _ => total_reduce1Vt _ _ _
theorem total_reduce3 (op : NttOperator) (a : Nat) : Total (reduce3 op a) := (total_reduce1 ..).bind fun _ => total_reduce1 _ _

theorem total_butterfly (op : NttOperator) {red : Nat → Nat → Timed Nat} (hr : ∀ a b, Total (red a b)) (x y w s : Nat) :
    Total (butterflyWith op red x y w s) := (hr _ _).bind fun _ => (total_lazyMulShoup ..).bind fun _ => Total.pure _
theorem total_invButterfly (op : NttOperator) {red : Nat → Nat → Timed Nat} (hr : ∀ a b, Total (red a b)) (x y w s : Nat) :
    Total (invButterflyWith op red x y w s) := (hr _ _).bind fun _ => (total_lazyMulShoup ..).bind fun _ => Total.pure _

theorem mapLoop_total {f : α → Timed β} (hf : ∀ a, Total (f a)) (l : List α) : ∃ l', (mapLoop f l).result = some l' ∧ l'.length = l.length := by
  induction l with
  | nil => exact ⟨[], rfl, rfl⟩
  | cons x xs ih =>
    obtain ⟨y, hy⟩ := hf x
    obtain ⟨ys, hys, hl⟩ := ih
    refine ⟨y :: ys, ?_, by simp [hl]⟩
    show ((branchOn True >>= fun _ => f x >>= fun y => mapLoop f xs >>= fun ys => (pure (y :: ys) : Timed _))).result = _
    rw [bind_result_eq (show (branchOn True).result = some _ from rfl), bind_result_eq hy, bind_result_eq hys]
    rfl

/-! ## Transforms -/

theorem inner_eq {f : Nat → Nat → Timed (Nat × Nat)} {g : Nat → Nat → Nat → Timed (Nat × Nat)} {k : Nat} (hf : ∀ x y, Total (f x y))
    (hg : ∀ x y, (g k x y).result = (f x y).result) {l : Nat} (hl : 0 < l) (left j : Nat) (a : List Nat) (h : j + left + l ≤ a.length) :
    ∃ a', inner f l left j a = .returned a' ∧ (idxInner g l k left j a).result = some a' ∧ a'.length = a.length := by
  induction left generalizing j a with
  | zero => exact ⟨a, rfl, rfl, rfl⟩
  | succ left ih =>
    have h1 : j < a.length := by omega
    have h2 : j + l < a.length := by omega
    obtain ⟨⟨x, y⟩, hxy⟩ := hf a[j] a[j + l]
    obtain ⟨a', h3, h4, h5⟩ := ih (j + 1) ((a.set j x).set (j + l) y) (by simp only [List.length_set]; omega)
    refine ⟨a', ?_, ?_, by rw [h5]; simp⟩
    · unfold inner pairUpdate
      rw [if_neg (by omega), unchecked_lt h1, ret_bind, unchecked_lt h2, ret_bind, safe_some hxy]
      exact h3
    · unfold idxInner
      rw [bind_result_eq (show (branchOn True).result = some _ from rfl)]
      have : (Release.pairUpdate g l k j a).result = some ((a.set j x).set (j + l) y) := by
        unfold Release.pairUpdate
        rw [bind_result_eq (show (fetch a j).result = some a[j] from List.getElem?_eq_getElem h1),
          bind_result_eq (show (fetch a (j + l)).result = some a[j + l] from List.getElem?_eq_getElem h2),
          bind_result_eq ((hg _ _).trans hxy)]
        rfl
      rw [bind_result_eq this]
      exact h4

theorem pass_eq {f : Nat → Nat → Nat → Nat → Timed (Nat × Nat)} {g : Nat → Nat → Nat → Timed (Nat × Nat)} {tb ts : List Nat}
    (hf : ∀ x y w s, Total (f x y w s)) (hg : ∀ k (h : k < tb.length) (h' : k < ts.length) x y, (g k x y).result = (f x y tb[k] ts[k]).result)
    {l : Nat} (hl : 0 < l) (left i k : Nat) (a : List Nat) (h : 2 * (i + left) * l ≤ a.length) (h1 : k + left ≤ tb.length) (h2 : k + left ≤ ts.length) :
    ∃ a', pass f tb ts l left i k a = .returned (a', k + left) ∧ (idxPass g l left i k a).result = some (a', k + left) ∧ a'.length = a.length := by
  induction left generalizing i k a with
  | zero => exact ⟨a, rfl, rfl, rfl⟩
  | succ left ih =>
    have hk1 : k < tb.length := by omega
    have hk2 : k < ts.length := by omega
    have hb : 2 * i * l + l + l ≤ a.length := by
      refine le_trans ?_ h
      have : 2 * (i + (left + 1)) * l = 2 * i * l + l + l + 2 * left * l := by ring
      omega
    obtain ⟨a1, e1, e2, e3⟩ := inner_eq (f := fun x y => f x y tb[k] ts[k]) (g := g) (k := k) (fun _ _ => hf ..) (hg k hk1 hk2) hl l (2 * i * l) a hb
    obtain ⟨a', e4, e5, e6⟩ := ih (i + 1) (k + 1) a1 (by rw [e3]; refine le_trans (le_of_eq ?_) h; ring) (by omega) (by omega)
    refine ⟨a', ?_, ?_, by omega⟩
    · unfold pass
      rw [unchecked_lt hk1, ret_bind, unchecked_lt hk2, ret_bind, e1, ret_bind, e4]
      congr 2; omega
    · unfold idxPass
      rw [bind_result_eq (show (branchOn True).result = some _ from rfl), bind_result_eq e2, e5]
      congr 2; omega

theorem tables {op : NttOperator} {n ω ωi : Nat} (h : op.WF n ω ωi) :
    op.omegas.length = 2 ^ n ∧ op.omegasShoup.length = 2 ^ n ∧ op.zetasInv.length = 2 ^ n ∧ op.zetasInvShoup.length = 2 ^ n := by
  have hs : ∀ {m : Modulus} {l ls : List Nat}, m.shoupVec l = some ls → ls.length = l.length := by
    intro m l ls hl
    unfold Modulus.shoupVec at hl
    induction l generalizing ls with
    | nil => simp at hl; simp [← hl]
    | cons a l ih =>
      rw [List.mapM_cons] at hl
      cases ha : m.shoup a with
      | none => simp [ha] at hl
      | some sa =>
        cases hr : l.mapM m.shoup with
        | none => simp [ha, hr] at hl
        | some lr =>
          simp [ha, hr] at hl
          simp [← hl, ih hr]
  have h1 : op.omegas.length = 2 ^ n := by rw [h.omegas]; simp [tab]
  have h2 : op.zetasInv.length = 2 ^ n := by rw [h.zetas]; simp [tab]
  exact ⟨h1, by rw [hs h.omegasShoup, h1], h2, by rw [hs h.zetasShoup, h2]⟩

theorem forwardLoop_eq {op : NttOperator} {n ω ωi : Nat} (h : op.WF n ω ωi) (t s : Nat) (hn : t + s + 1 = n) (a : List Nat) (ha : 2 ^ n ≤ a.length) :
    ∃ a', forwardLoop op (2 ^ t) (2 ^ s) (2 ^ s) a = .returned a' ∧ (forwardVtLoop op (2 ^ t) (2 ^ s) (2 ^ s) a).result = some a' ∧
      a'.length = a.length := by
  obtain ⟨t1, t2, -, -⟩ := tables h
  induction t generalizing s a with
  | zero =>
    have hp : 2 ^ s + 2 ^ s = 2 ^ n := by rw [← hn]; ring
    obtain ⟨a', e1, e2, e3⟩ := pass_eq (f := butterflyWith op (reduce1Vt op.p.vtCfg)) (g := fwdVtOp op) (tb := op.omegas) (ts := op.omegasShoup)
      (fun _ _ _ _ => total_butterfly op (fun _ _ => total_reduce1Vt ..) ..)
      (fun k h h' x y => by
        unfold fwdVtOp
        rw [bind_result_eq (show (fetch op.omegas k).result = some op.omegas[k] from List.getElem?_eq_getElem h),
          bind_result_eq (show (fetch op.omegasShoup k).result = some op.omegasShoup[k] from List.getElem?_eq_getElem h')])
      (l := 1) one_pos (2 ^ s) 0 (2 ^ s) a (by omega) (by omega) (by omega)
    refine ⟨a', ?_, ?_, e3⟩
    · rw [forwardLoop, dif_pos (by simp), show (2 : Nat) ^ 0 = 1 from rfl, e1, ret_bind]
      show forwardLoop op (1 >>> 1) _ _ a' = _
      rw [forwardLoop, dif_neg (by decide)]; rfl
    · rw [forwardVtLoop, dif_pos (by simp), show (2 : Nat) ^ 0 = 1 from rfl, bind_result_eq (show (branchOn True).result = some _ from rfl), bind_result_eq e2]
      show (forwardVtLoop op (1 >>> 1) _ _ a').result = _
      rw [forwardVtLoop, dif_neg (by decide)]; rfl
  | succ t ih =>
    have hp : 2 * (0 + 2 ^ s) * 2 ^ (t + 1) = 2 ^ n := by rw [← hn, Nat.zero_add]; ring
    have hle : 2 ^ s + 2 ^ s ≤ 2 ^ n := by
      rw [show 2 ^ s + 2 ^ s = 2 ^ (s + 1) by ring]; exact Nat.pow_le_pow_right (by omega) (by omega)
    obtain ⟨a1, e1, e2, e3⟩ := pass_eq (f := butterflyWith op (reduce1Vt op.p.vtCfg)) (g := fwdVtOp op) (tb := op.omegas) (ts := op.omegasShoup)
      (fun _ _ _ _ => total_butterfly op (fun _ _ => total_reduce1Vt ..) ..)
      (fun k h h' x y => by
        unfold fwdVtOp
        rw [bind_result_eq (show (fetch op.omegas k).result = some op.omegas[k] from List.getElem?_eq_getElem h),
          bind_result_eq (show (fetch op.omegasShoup k).result = some op.omegasShoup[k] from List.getElem?_eq_getElem h')])
      (l := 2 ^ (t + 1)) (by positivity) (2 ^ s) 0 (2 ^ s) a (by omega) (by omega) (by omega)
    obtain ⟨a', e4, e5, e6⟩ := ih (s + 1) (by omega) a1 (by omega)
    have e7 : 2 ^ (t + 1) >>> 1 = 2 ^ t := by rw [Nat.shiftRight_eq_div_pow]; omega
    have e8 : 2 ^ s <<< 1 = 2 ^ (s + 1) := by rw [Nat.shiftLeft_eq]; ring
    have e9 : 2 ^ s + 2 ^ s = 2 ^ (s + 1) := by ring
    refine ⟨a', ?_, ?_, by omega⟩
    · rw [forwardLoop, dif_pos (by positivity), e1, ret_bind]
      simp only [e7, e8, e9]; exact e4
    · rw [forwardVtLoop, dif_pos (by positivity), bind_result_eq (show (branchOn True).result = some _ from rfl), bind_result_eq e2]
      simp only [e7, e8, e9]; exact e5

theorem backwardLoop_eq {op : NttOperator} {n ω ωi : Nat} (h : op.WF n ω ωi) (t s : Nat) (hn : t + s + 1 = n) (a : List Nat) (ha : 2 ^ n ≤ a.length) :
    ∃ a', backwardLoop op (2 ^ s) (2 ^ t) (2 ^ n - 2 ^ (t + 1)) a = .returned a' ∧
      (backwardVtLoop op (2 ^ s) (2 ^ t) (2 ^ n - 2 ^ (t + 1)) a).result = some a' ∧ a'.length = a.length := by
  obtain ⟨-, -, t1, t2⟩ := tables h
  induction t generalizing s a with
  | zero =>
    have hp : 2 * (0 + 1) * 2 ^ s = 2 ^ n := by rw [← hn]; ring
    have hp2 : 2 ≤ 2 ^ n := by rw [← hn]; calc 2 = 2 ^ 1 := rfl
                                     _ ≤ _ := Nat.pow_le_pow_right (by omega) (by omega)
    obtain ⟨a', e1, e2, e3⟩ := pass_eq (f := invButterflyWith op (reduce1Vt op.p.vtCfg)) (g := bwdVtOp op) (tb := op.zetasInv) (ts := op.zetasInvShoup)
      (fun _ _ _ _ => total_invButterfly op (fun _ _ => total_reduce1Vt ..) ..)
      (fun k h h' x y => by
        unfold bwdVtOp
        rw [bind_result_eq (show (fetch op.zetasInv k).result = some op.zetasInv[k] from List.getElem?_eq_getElem h),
          bind_result_eq (show (fetch op.zetasInvShoup k).result = some op.zetasInvShoup[k] from List.getElem?_eq_getElem h')])
      (l := 2 ^ s) (by positivity) 1 0 (2 ^ n - 2 ^ (0 + 1)) a (by omega) (by omega) (by omega)
    refine ⟨a', ?_, ?_, e3⟩
    · rw [backwardLoop, dif_pos (by simp), show (2 : Nat) ^ 0 = 1 from rfl, e1, ret_bind]
      show backwardLoop op _ (1 >>> 1) _ a' = _
      rw [backwardLoop, dif_neg (by decide)]; rfl
    · rw [backwardVtLoop, dif_pos (by simp), show (2 : Nat) ^ 0 = 1 from rfl, bind_result_eq (show (branchOn True).result = some _ from rfl), bind_result_eq e2]
      show (backwardVtLoop op _ (1 >>> 1) _ a').result = _
      rw [backwardVtLoop, dif_neg (by decide)]; rfl
  | succ t ih =>
    have hp : 2 * (0 + 2 ^ (t + 1)) * 2 ^ s = 2 ^ n := by rw [← hn, Nat.zero_add]; ring
    have hle : 2 ^ (t + 1 + 1) ≤ 2 ^ n := Nat.pow_le_pow_right (by omega) (by omega)
    have h2 : 2 ^ (t + 1 + 1) = 2 ^ (t + 1) + 2 ^ (t + 1) := by ring
    have h2' : 0 < 2 ^ t := by positivity
    obtain ⟨a1, e1, e2, e3⟩ := pass_eq (f := invButterflyWith op (reduce1Vt op.p.vtCfg)) (g := bwdVtOp op) (tb := op.zetasInv) (ts := op.zetasInvShoup)
      (fun _ _ _ _ => total_invButterfly op (fun _ _ => total_reduce1Vt ..) ..)
      (fun k h h' x y => by
        unfold bwdVtOp
        rw [bind_result_eq (show (fetch op.zetasInv k).result = some op.zetasInv[k] from List.getElem?_eq_getElem h),
          bind_result_eq (show (fetch op.zetasInvShoup k).result = some op.zetasInvShoup[k] from List.getElem?_eq_getElem h')])
      (l := 2 ^ s) (by positivity) (2 ^ (t + 1)) 0 (2 ^ n - 2 ^ (t + 1 + 1)) a (by omega) (by omega) (by omega)
    obtain ⟨a', e4, e5, e6⟩ := ih (s + 1) (by omega) a1 (by omega)
    have e7 : 2 ^ (t + 1) >>> 1 = 2 ^ t := by rw [Nat.shiftRight_eq_div_pow]; omega
    have e8 : 2 ^ s <<< 1 = 2 ^ (s + 1) := by rw [Nat.shiftLeft_eq]; ring
    have e9 : 2 ^ n - 2 ^ (t + 1 + 1) + 2 ^ (t + 1) = 2 ^ n - 2 ^ (t + 1) := by omega
    refine ⟨a', ?_, ?_, by omega⟩
    · rw [backwardLoop, dif_pos (by positivity), e1, ret_bind]
      simp only [e7, e8, e9]; exact e4
    · rw [backwardVtLoop, dif_pos (by positivity), bind_result_eq (show (branchOn True).result = some _ from rfl), bind_result_eq e2]
      simp only [e7, e8, e9]; exact e5

/-- What a transform does to an allocation. -/
def Transforms (f : NttOperator → List Nat → Nat → Outcome (List Nat)) (g : NttOperator → List Nat → Timed (List Nat)) (op : NttOperator) : Prop :=
  ∀ mem ptr, if ptr + op.size ≤ mem.length then
      ∃ a, (g op ((mem.drop ptr).take op.size)).result = some a ∧ a.length = op.size ∧ f op mem ptr = .returned (putBack mem ptr a)
    else f op mem ptr = .undefined

theorem putBack_seg {mem a b : List Nat} {ptr n : Nat} (h : ptr + n ≤ mem.length) (ha : a.length = n) (hb : b.length = n) :
    ptr + n ≤ (putBack mem ptr a).length ∧ ((putBack mem ptr a).drop ptr).take n = a ∧ putBack (putBack mem ptr a) ptr b = putBack mem ptr b := by
  have hl : (mem.take ptr).length = ptr := by rw [List.length_take]; omega
  subst ha
  unfold putBack
  refine ⟨by simp only [List.length_append, List.length_drop, hl]; omega, ?_, ?_⟩
  · rw [List.append_assoc, List.drop_append_of_le_length (by omega), List.drop_of_length_le (by omega)]
    simp
  · have e1 : (mem.take ptr ++ a ++ mem.drop (ptr + a.length)).take ptr = mem.take ptr := by
      rw [List.append_assoc, List.take_append_of_le_length (by omega), List.take_of_length_le (by omega)]
    have e2 : (mem.take ptr ++ a ++ mem.drop (ptr + a.length)).drop (ptr + b.length) = mem.drop (ptr + b.length) := by
      rw [hb, List.drop_append, List.drop_of_length_le (by simp [hl]), List.length_append, hl]
      simp
    rw [e1, e2]

theorem fromRawParts_le {mem : List Nat} {ptr n : Nat} (h : ptr + n ≤ mem.length) : fromRawParts mem ptr n = .returned ((mem.drop ptr).take n) := if_pos h
theorem seg_length {mem : List Nat} {ptr n : Nat} (h : ptr + n ≤ mem.length) : ((mem.drop ptr).take n).length = n := by
  rw [List.length_take, List.length_drop]; omega

theorem half {op : NttOperator} {n ω ωi : Nat} (h : op.WF n ω ωi) : op.size >>> 1 = 2 ^ (n - 1) := by
  have := h.three_le
  obtain ⟨k, rfl⟩ : ∃ k, n = k + 1 := ⟨n - 1, by omega⟩
  rw [h.size, Nat.shiftRight_eq_div_pow]
  simp only [Nat.add_sub_cancel]; omega

theorem forwardVtLazy_mem {op : NttOperator} {n ω ωi : Nat} (h : op.WF n ω ωi) : Transforms forwardVtLazy Release.forwardVtLazy op := by
  intro mem ptr
  split
  · rename_i hm
    have h3 := h.three_le
    obtain ⟨a, e1, e2, e3⟩ := forwardLoop_eq h (n - 1) 0 (by omega) ((mem.drop ptr).take op.size) (by rw [seg_length hm, h.size])
    refine ⟨a, ?_, by rw [e3, seg_length hm], ?_⟩
    · unfold Release.forwardVtLazy; rw [half h]; exact e2
    · unfold forwardVtLazy
      rw [fromRawParts_le hm, ret_bind, half h]
      rw [show (2 : Nat) ^ 0 = 1 from rfl] at e1
      rw [e1]; rfl
  · rename_i hm
    unfold forwardVtLazy fromRawParts
    rw [if_neg hm]; rfl

theorem forwardVt_mem {op : NttOperator} {n ω ωi : Nat} (h : op.WF n ω ωi) : Transforms forwardVt Release.forwardVt op := by
  intro mem ptr
  have hz := forwardVtLazy_mem h mem ptr
  split
  · rename_i hm
    rw [if_pos hm] at hz
    obtain ⟨a, e1, e2, e3⟩ := hz
    obtain ⟨b, e4, e5⟩ := mapLoop_total (total_reduce3Vt op) a
    obtain ⟨p1, p2, p3⟩ := putBack_seg (b := b) hm e2 (by omega)
    refine ⟨b, ?_, by omega, ?_⟩
    · unfold Release.forwardVt; rw [bind_result_eq e1]; exact e4
    · unfold forwardVt
      rw [e3, ret_bind, fromRawParts_le p1, ret_bind, p2, safe_some e4, ret_bind, p3]; rfl
  · rename_i hm
    rw [if_neg hm] at hz
    unfold forwardVt
    rw [hz]; rfl

theorem backwardVt_mem {op : NttOperator} {n ω ωi : Nat} (h : op.WF n ω ωi) : Transforms backwardVt Release.backwardVt op := by
  intro mem ptr
  split
  · rename_i hm
    have h3 := h.three_le
    obtain ⟨a, e1, e2, e3⟩ := backwardLoop_eq h (n - 1) 0 (by omega) ((mem.drop ptr).take op.size) (by rw [seg_length hm, h.size])
    rw [show n - 1 + 1 = n by omega, Nat.sub_self, show (2 : Nat) ^ 0 = 1 from rfl] at e1 e2
    obtain ⟨b, e4, e5⟩ := mapLoop_total (fun ai => total_mulShoup op.p ai op.sizeInv op.sizeInvShoup) a
    refine ⟨b, ?_, by rw [e5, e3, seg_length hm], ?_⟩
    · unfold Release.backwardVt; rw [half h, bind_result_eq e2]; exact e4
    · unfold backwardVt
      rw [fromRawParts_le hm, ret_bind, half h, e1, ret_bind, safe_some e4]; rfl
  · rename_i hm
    unfold backwardVt fromRawParts
    rw [if_neg hm]; rfl

end Fhe.Memory
