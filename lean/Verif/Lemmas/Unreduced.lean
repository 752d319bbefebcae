import Verif.Spec.Unreduced
import Verif.Lemmas.BfvOps
import Verif.Lemmas.BfvEncode
/-!
# Lemmas on values that are not reduced
-/
namespace Fhe
open Nega Poly

/-! ## The transforms reject what is too large -/

namespace NttOperator
variable {op : NttOperator} {B : Nat}

/-- A butterfly that rejects operands of `B` and more. -/
def Rejects (f : Nat → Nat → Nat → Panics (Nat × Nat)) (B : Nat) : Prop := ∀ k x y, B ≤ x ∨ B ≤ y → f k x y = none

theorem invButterfly_none {red : Nat → Nat → Panics Nat} {x y z zs : Nat} (h : op.pTwice ≤ x ∨ op.pTwice ≤ y) : op.invButterflyWith red x y z zs = none := by
  unfold invButterflyWith
  by_cases hx : x < op.pTwice
  · rw [check_eq hx, show check (y < op.pTwice) = none from if_neg (by omega)]; rfl
  · rw [show check (x < op.pTwice) = none from if_neg hx]; rfl

theorem butterfly_none {red : Nat → Nat → Panics Nat} {x y z zs : Nat} (h : 4 * op.p.p ≤ x ∨ 4 * op.p.p ≤ y) : op.butterflyWith red x y z zs = none := by
  unfold butterflyWith
  by_cases hx : x < 4 * op.p.p
  · rw [check_eq hx, show check (y < 4 * op.p.p) = none from if_neg (by omega)]; rfl
  · rw [show check (x < 4 * op.p.p) = none from if_neg hx]; rfl

theorem bwdOp_rejects : Rejects op.bwdOp op.pTwice := by
  intro k x y h
  unfold bwdOp
  cases op.zetasInv[k]? <;> cases op.zetasInvShoup[k]? <;> first | rfl | exact invButterfly_none h
theorem bwdVtOp_rejects : Rejects op.bwdVtOp op.pTwice := by
  intro k x y h
  unfold bwdVtOp
  cases op.zetasInv[k]? <;> cases op.zetasInvShoup[k]? <;> first | rfl | exact invButterfly_none h
theorem fwdOp_rejects {last : Bool} : Rejects (op.fwdOp last) (4 * op.p.p) := by
  intro k x y h
  unfold fwdOp
  cases op.omegas[k]? <;> cases op.omegasShoup[k]? <;> first | rfl | (simp only [Option.bind_eq_bind, Option.bind_some]; rw [butterfly_none h]; rfl)
theorem fwdVtOp_rejects : Rejects op.fwdVtOp (4 * op.p.p) := by
  intro k x y h
  unfold fwdVtOp
  cases op.omegas[k]? <;> cases op.omegasShoup[k]? <;> first | rfl | exact butterfly_none h

theorem mapM_none {α β : Type} {f : α → Option β} : ∀ {l : List α}, (∃ x ∈ l, f x = none) → l.mapM f = none
  | [], h => by simp at h
  | a :: l, h => by
    rw [List.mapM_cons]
    cases ha : f a with
    | none => rfl
    | some c =>
      rw [mapM_none (l := l)]
      · rfl
      · obtain ⟨x, hx, hn⟩ := h
        rcases List.mem_cons.1 hx with rfl | hx
        · rw [ha] at hn; cases hn
        · exact ⟨x, hx, hn⟩

theorem chunkPass_none {f : Nat → Nat → Nat → Panics (Nat × Nat)} (hf : Rejects f B) {l : Nat} (hl : 0 < l) : ∀ (m k : Nat) {a : List Nat}, a.length = m * (2 * l) →
    (∃ x ∈ a, B ≤ x) → chunkPass f l k a = none
  | 0, k, a, ha, hx => by
    rw [Nat.zero_mul, List.length_eq_zero_iff] at ha
    rw [ha] at hx; simp at hx
  | m + 1, k, a, ha, hx => by
    rw [Nat.add_mul, Nat.one_mul] at ha
    rw [chunkPass, dif_pos ⟨hl, by omega⟩]
    obtain ⟨x, hx, hB⟩ := hx
    rw [← List.take_append_drop (2 * l) a, List.mem_append] at hx
    rcases hx with hx | hx
    · simp only [Option.bind_eq_bind]
      rw [mapM_none]
      · rfl
      · have hlen : (a.take (2 * l)).length = 2 * l := by rw [List.length_take]; omega
        obtain ⟨i, hi, rfl⟩ := List.mem_iff_getElem.1 hx
        rw [hlen] at hi
        by_cases hil : i < l
        · refine ⟨((a.take (2 * l))[i], (a.take (2 * l))[l + i]), ?_, hf _ _ _ (Or.inl hB)⟩
          rw [List.mem_iff_getElem]
          refine ⟨i, by simp only [List.length_zip, List.length_take, List.length_drop]; omega, ?_⟩
          rw [List.getElem_zip, List.getElem_take, List.getElem_drop]
        · refine ⟨((a.take (2 * l))[i - l], (a.take (2 * l))[i]), ?_, hf _ _ _ (Or.inr hB)⟩
          rw [List.mem_iff_getElem]
          refine ⟨i - l, by simp only [List.length_zip, List.length_take, List.length_drop]; omega, ?_⟩
          rw [List.getElem_zip, List.getElem_take, List.getElem_drop]
          congr 2
          omega
    · have := chunkPass_none hf hl m (k + 1) (a := a.drop (2 * l)) (by rw [List.length_drop]; omega) ⟨x, hx, hB⟩
      simp only [Option.bind_eq_bind]
      cases (List.zip (List.take l (List.take (2 * l) a)) (List.drop l (List.take (2 * l) a))).mapM (fun xy : Nat × Nat => f k xy.1 xy.2) with
      | none => rfl
      | some prs => rw [Option.bind_some, this]; rfl

theorem idxInner_none {f : Nat → Nat → Nat → Panics (Nat × Nat)} (hf : Rejects f B) {l k : Nat} : ∀ (left j : Nat) {a : List Nat}, left ≤ l →
    (∃ i, j ≤ i ∧ i < j + left ∧ (B ≤ a.getD i 0 ∨ B ≤ a.getD (i + l) 0)) → idxInner f l k left j a = none
  | 0, j, a, _, h => by obtain ⟨i, h1, h2, -⟩ := h; omega
  | left + 1, j, a, hle, h => by
    obtain ⟨i, h1, h2, h3⟩ := h
    rw [idxInner, pairUpdate]
    cases hj : a[j]? with
    | none => rfl
    | some x =>
      cases hjl : a[j + l]? with
      | none => rfl
      | some y =>
        simp only [Option.bind_eq_bind, Option.bind_some]
        rcases Nat.lt_or_ge j i with hji | hji
        · cases hxy : f k x y with
          | none => rfl
          | some xy =>
            rw [Option.bind_some]
            show idxInner f l k left (j + 1) ((a.set j xy.1).set (j + l) xy.2) = none
            refine idxInner_none hf left (j + 1) (by omega) ⟨i, hji, by omega, ?_⟩
            have e : ∀ z, z ≠ j → z ≠ j + l → ((a.set j xy.1).set (j + l) xy.2).getD z 0 = a.getD z 0 := by
              intro z z1 z2
              rw [List.getD_eq_getElem?_getD, List.getElem?_set_ne (by omega), List.getElem?_set_ne (by omega), ← List.getD_eq_getElem?_getD]
            rw [e i (by omega) (by omega), e (i + l) (by omega) (by omega)]
            exact h3
        · obtain rfl : i = j := by omega
          rw [List.getD_eq_getElem?_getD, hj, List.getD_eq_getElem?_getD, hjl] at h3
          rw [hf k x y h3]; rfl

theorem idxInner_frame {f : Nat → Nat → Nat → Panics (Nat × Nat)} {l k : Nat} : ∀ (left j : Nat) {a a' : List Nat}, idxInner f l k left j a = some a' → left ≤ l →
    ∀ z, j + l + left ≤ z → a'.getD z 0 = a.getD z 0
  | 0, j, a, a', h, _, z, _ => by rw [idxInner] at h; cases h; rfl
  | left + 1, j, a, a', h, hle, z, hz => by
    rw [idxInner, pairUpdate] at h
    cases hj : a[j]? with
    | none => rw [hj] at h; cases h
    | some x =>
      cases hjl : a[j + l]? with
      | none => rw [hj, hjl] at h; cases h
      | some y =>
        rw [hj, hjl] at h
        simp only [Option.bind_eq_bind, Option.bind_some] at h
        cases hxy : f k x y with
        | none => rw [hxy] at h; cases h
        | some xy =>
          rw [hxy, Option.bind_some] at h
          rw [idxInner_frame left (j + 1) (a := (a.set j xy.1).set (j + l) xy.2) h (by omega) z (by omega), List.getD_eq_getElem?_getD, List.getElem?_set_ne (by omega),
            List.getElem?_set_ne (by omega), ← List.getD_eq_getElem?_getD]

theorem idxPass_none {f : Nat → Nat → Nat → Panics (Nat × Nat)} (hf : Rejects f B) {l : Nat} (hl : 0 < l) : ∀ (left i k : Nat) {a : List Nat},
    (∃ z, 2 * i * l ≤ z ∧ z < 2 * (i + left) * l ∧ B ≤ a.getD z 0) → idxPass f l left i k a = none
  | 0, i, k, a, h => by obtain ⟨z, h1, h2, -⟩ := h; rw [Nat.add_zero] at h2; omega
  | left + 1, i, k, a, h => by
    obtain ⟨z, h1, h2, h3⟩ := h
    rw [idxPass]
    simp only [Option.bind_eq_bind]
    have e : 2 * (i + 1) * l = 2 * i * l + 2 * l := by ring
    by_cases hz : z < 2 * (i + 1) * l
    · rw [idxInner_none hf l (2 * i * l) (le_refl _)]
      · rfl
      · by_cases hz' : z < 2 * i * l + l
        · exact ⟨z, h1, hz', Or.inl h3⟩
        · exact ⟨z - l, by omega, by omega, Or.inr (by rw [Nat.sub_add_cancel (by omega)]; exact h3)⟩
    · cases hi : idxInner f l k l (2 * i * l) a with
      | none => rfl
      | some a' =>
        rw [Option.bind_some]
        refine idxPass_none hf hl left (i + 1) (k + 1) ⟨z, by omega, by rw [show i + 1 + left = i + (left + 1) by omega]; exact h2, ?_⟩
        rw [idxInner_frame l (2 * i * l) hi (le_refl _) z (by omega)]
        exact h3

variable {n ω ωi : Nat}

theorem backward_none (h : op.WF n ω ωi) {a : List Nat} (hl : a.length = op.size) (hx : ∃ x ∈ a, 2 * op.p.p ≤ x) : op.backward a = none ∧ op.backwardVt a = none := by
  have h3 := h.three_le
  have hs : op.size = 2 * 2 ^ (n - 1) := by rw [h.size, ← pow_succ']; congr 1; omega
  have hpos : 0 < 2 ^ (n - 1) := by positivity
  rw [← h.twice] at hx
  constructor
  · unfold backward
    rw [check_eq hl, backwardLoop, dif_pos ⟨Nat.one_pos, by omega⟩]
    simp only [Option.bind_eq_bind, Option.bind_some]
    rw [chunkPass_none bwdOp_rejects Nat.one_pos (2 ^ (n - 1)) 0 (by omega) hx]; rfl
  · unfold backwardVt
    rw [check_eq hl, backwardVtLoop, dif_pos (by rw [Nat.shiftRight_eq_div_pow]; omega)]
    simp only [Option.bind_eq_bind, Option.bind_some]
    rw [idxPass_none bwdVtOp_rejects Nat.one_pos]
    · rfl
    · obtain ⟨x, hx, hB⟩ := hx
      obtain ⟨i, hi, rfl⟩ := List.mem_iff_getElem.1 hx
      refine ⟨i, by omega, ?_, by rw [List.getD_eq_getElem _ _ hi]; exact hB⟩
      rw [Nat.shiftRight_eq_div_pow]; omega

theorem forward_none (h : op.WF n ω ωi) {a : List Nat} (hl : a.length = op.size) (hx : ∃ x ∈ a, 4 * op.p.p ≤ x) : op.forward a = none ∧ op.forwardVt a = none := by
  have h3 := h.three_le
  have hs : op.size = 2 * 2 ^ (n - 1) := by rw [h.size, ← pow_succ']; congr 1; omega
  have hpos : 0 < 2 ^ (n - 1) := by positivity
  have hsh : op.size >>> 1 = 2 ^ (n - 1) := by rw [Nat.shiftRight_eq_div_pow]; omega
  constructor
  · unfold forward
    rw [check_eq hl, hsh, forwardLoop, dif_pos hpos]
    simp only [Option.bind_eq_bind, Option.bind_some]
    rw [chunkPass_none fwdOp_rejects hpos 1 1 (by omega) hx]; rfl
  · unfold forwardVt forwardVtLazy
    rw [check_eq hl, hsh, forwardVtLoop, dif_pos hpos]
    simp only [Option.bind_eq_bind, Option.bind_some]
    rw [idxPass_none fwdVtOp_rejects hpos]
    · rfl
    · obtain ⟨x, hx, hB⟩ := hx
      obtain ⟨i, hi, rfl⟩ := List.mem_iff_getElem.1 hx
      exact ⟨i, by omega, by omega, by rw [List.getD_eq_getElem _ _ hi]; exact hB⟩

theorem forward_mod (h : op.WF n ω ωi) {a : List Nat} (hl : a.length = op.size) (ha : ∀ x ∈ a, x < 4 * op.p.p) :
    op.forward a = op.forward (a.map (· % op.p.p)) ∧ op.forwardVt a = op.forwardVt (a.map (· % op.p.p)) := by
  have hpos := h.modulus.pos
  have hl' : (a.map (· % op.p.p)).length = op.size := by rw [List.length_map, hl]
  have h4 : ∀ x ∈ a.map (· % op.p.p), x < 4 * op.p.p := by
    intro x hx
    obtain ⟨y, -, rfl⟩ := List.mem_map.1 hx
    have := Nat.mod_lt y hpos; omega
  have hf : fwdVal op.p.p n ω (a.map (· % op.p.p)) = fwdVal op.p.p n ω a := by
    unfold fwdVal
    simp only [show ∀ i, (((a.map (· % op.p.p)).getD i 0 : Nat) : ZMod op.p.p) = ((a.getD i 0 : Nat) : ZMod op.p.p) from fun i => by
      rw [List.getD_eq_getElem?_getD, List.getD_eq_getElem?_getD, List.getElem?_map]
      cases a[i]? <;> simp]
  rw [forward_eq h hl ha, forward_eq h hl' h4, forwardVt_eq h hl ha, forwardVt_eq h hl' h4, hf]; exact ⟨rfl, rfl⟩

theorem backward_mod (h : op.WF n ω ωi) {a : List Nat} (hl : a.length = op.size) (ha : ∀ x ∈ a, x < 2 * op.p.p) :
    op.backward a = op.backward (a.map (· % op.p.p)) ∧ op.backwardVt a = op.backwardVt (a.map (· % op.p.p)) := by
  have hpos := h.modulus.pos
  have hl' : (a.map (· % op.p.p)).length = op.size := by rw [List.length_map, hl]
  have h2 : ∀ x ∈ a.map (· % op.p.p), x < 2 * op.p.p := by
    intro x hx
    obtain ⟨y, -, rfl⟩ := List.mem_map.1 hx
    have := Nat.mod_lt y hpos; omega
  have hf : bwdVal op.p.p n ωi op.sizeInv (a.map (· % op.p.p)) = bwdVal op.p.p n ωi op.sizeInv a := by
    unfold bwdVal
    simp only [show ∀ i, (((a.map (· % op.p.p)).getD i 0 : Nat) : ZMod op.p.p) = ((a.getD i 0 : Nat) : ZMod op.p.p) from fun i => by
      rw [List.getD_eq_getElem?_getD, List.getD_eq_getElem?_getD, List.getElem?_map]
      cases a[i]? <;> simp]
  rw [backward_eq h hl ha, backward_eq h hl' h2, backwardVt_eq h hl ha, backwardVt_eq h hl' h2, hf]; exact ⟨rfl, rfl⟩

end NttOperator

/-! ## Slots -/

namespace PlaintextVec

theorem scatter_map (f : Nat → Nat) : ∀ (v map init : List Nat), scatter (v.map f) map (init.map f) = (scatter v map init).map (List.map f)
  | [], _, init => rfl
  | _ :: _, [], _ => rfl
  | v :: vs, i :: is, init => by
    rw [List.map_cons, scatter, scatter]
    by_cases hi : i < init.length
    · rw [check_eq hi, check_eq (by simpa using hi)]
      simp only [Option.bind_eq_bind, Option.bind_some]
      rw [← List.map_set, scatter_map f vs is]
    · rw [show check (i < init.length) = none from if_neg hi, show check (i < (init.map f).length) = none from if_neg (by simpa using hi)]; rfl

variable {b : Build} {n : Nat} {par : Par} {l : ContextLevel}

theorem scatter_slots (hw : ParWF b n par.toBfvParameters) {v : List Nat} (hv : v.length ≤ par.degree) :
    ∃ u, scatter v par.indexMap (List.replicate par.degree 0) = some u ∧ u.length = par.degree ∧ (∀ x ∈ v, x ∈ u) ∧ ∀ x ∈ u, x ∈ v ∨ x = 0 := by
  have h3 := hw.three_le
  have hmap := hw.map_eq
  have hN := hw.degree
  have hnd : par.indexMap.Nodup := by
    rw [hmap]
    unfold tab
    refine List.Nodup.map_on ?_ List.nodup_range
    intro i hi j hj hij
    exact ParamsBuilder.slotIndex_inj (by omega) (by rw [← hN]; exact List.mem_range.1 hi) (by rw [← hN]; exact List.mem_range.1 hj) hij
  have hml : par.indexMap.length = par.degree := by rw [hmap, length_tab]
  have hlt : ∀ i ∈ par.indexMap, i < par.degree := by
    intro i hi
    rw [hmap] at hi
    obtain ⟨j, -, rfl⟩ := mem_tab.1 hi
    rw [hN]; exact ParamsBuilder.slotIndex_lt n j
  obtain ⟨u, u1, u2, u3, u4⟩ := scatter_eq (v := v) (map := par.indexMap) (init := List.replicate par.degree 0) (by omega) hnd (by rw [List.length_replicate]; exact hlt)
  rw [List.length_replicate] at u2
  refine ⟨u, u1, u2, fun x hx => ?_, fun x hx => ?_⟩
  · obtain ⟨i, hi, rfl⟩ := List.mem_iff_getElem.1 hx
    have e := u3 i hi
    have hk : par.indexMap.getD i 0 < u.length := by
      rw [List.getD_eq_getElem _ _ (by omega), u2]; exact hlt _ (List.getElem_mem _)
    rw [List.getD_eq_getElem _ _ hk, List.getD_eq_getElem _ _ hi] at e
    rw [← e]; exact List.getElem_mem _
  · obtain ⟨k, hk, rfl⟩ := List.mem_iff_getElem.1 hx
    by_cases he : ∃ i < v.length, par.indexMap.getD i 0 = k
    · obtain ⟨i, hi, he⟩ := he
      have := u3 i hi
      rw [he, List.getD_eq_getElem _ _ hk, List.getD_eq_getElem _ _ hi] at this
      exact Or.inl (this ▸ List.getElem_mem _)
    · push Not at he
      have := u4 k he
      rw [List.getD_eq_getElem _ _ hk, List.getD_replicate _ (by omega)] at this
      exact Or.inr this

theorem chunkCoefficients_mod (hw : ParWF b n par.toBfvParameters) (hop : par.nttOperator ≠ none) {v : List Nat} (hv : v.length ≤ par.degree)
    (hlt : ∀ x ∈ v, x < 2 * par.plaintext.value) (vt : Bool) : chunkCoefficients v .simd par vt = chunkCoefficients (v.map (· % par.plaintext.value)) .simd par vt := by
  obtain ⟨op, hop⟩ := Option.ne_none_iff_exists'.1 hop
  obtain ⟨ω, ωi, m, h1, h2, -⟩ := hw.op_wf hop
  obtain ⟨u, u1, u2, -, u4⟩ := scatter_slots hw hv
  have ht := hw.t_pos
  have hs : u.length = op.size := by rw [u2, hw.degree, h1.size]
  have hu : ∀ x ∈ u, x < 2 * op.p.p := by
    intro x hx
    rw [h2]
    rcases u4 x hx with hx | rfl
    · exact hlt x hx
    · omega
  have e := scatter_map (· % par.plaintext.value) v par.indexMap (List.replicate par.degree 0)
  rw [List.map_replicate, Nat.zero_mod, u1] at e
  obtain ⟨e1, e2⟩ := NttOperator.backward_mod h1 hs hu
  rw [h2] at e1 e2
  unfold chunkCoefficients
  simp only []
  rw [u1, e, Option.map_some, Res.lift_some, Res.lift_some, Res.ok_bind, Res.ok_bind, hop]
  simp only []
  rw [e1, e2]

theorem chunkCoefficients_panic (hw : ParWF b n par.toBfvParameters) (hop : par.nttOperator ≠ none) {v : List Nat} (hv : v.length ≤ par.degree)
    (hx : ∃ x ∈ v, 2 * par.plaintext.value ≤ x) (vt : Bool) : chunkCoefficients v .simd par vt = Res.panic := by
  obtain ⟨op, hop⟩ := Option.ne_none_iff_exists'.1 hop
  obtain ⟨ω, ωi, m, h1, h2, -⟩ := hw.op_wf hop
  obtain ⟨u, u1, u2, u3, -⟩ := scatter_slots hw hv
  have hs : u.length = op.size := by rw [u2, hw.degree, h1.size]
  obtain ⟨x, hx, hB⟩ := hx
  obtain ⟨e1, e2⟩ := NttOperator.backward_none h1 hs ⟨x, u3 x hx, by rw [h2]; exact hB⟩
  unfold chunkCoefficients
  simp only []
  rw [u1, Res.lift_some, Res.ok_bind, hop]
  simp only []
  rw [e1, e2]
  cases vt <;> rfl

/-- At most `degree` values make one chunk. -/
theorem single {v : List Nat} (hN : par.degree ≠ 0) (hv : v.length ≤ par.degree) {encoding : Encoding} (hl : par.levels[encoding.level]? = some l)
    (hop : encoding.kind = .simd → par.nttOperator ≠ none) (F : List Nat → Context → Res (Poly .ntt)) :
    (do let w ← tryEncodeWith v encoding par F; lift w[0]?) = (do let p ← F v l.ctx; return ({ par, encoding := some encoding, polyNtt := p } : Plaintext)) := by
  unfold tryEncodeWith
  have hc : par.contextAtLevel encoding.level = Res.ok l.ctx := ParWF.contextAtLevel_iff.2 ⟨l, hl, rfl⟩
  have hcount : max ((v.length + par.degree - 1) / par.degree) 1 = 1 := by
    have : (v.length + par.degree - 1) / par.degree ≤ 1 := by
      rw [Nat.div_le_iff_le_mul_add_pred (by omega)]; omega
    omega
  rw [if_neg (fun h => hop h.1 h.2), hc, Res.ok_bind, check_eq hN, Res.lift_some, Res.ok_bind, hcount]
  rw [show List.range 1 = [0] from rfl, List.mapM_cons, List.mapM_nil, chunk_eq v (by omega), Res.lift_some, Res.ok_bind, Nat.zero_mul, List.drop_zero, List.take_of_length_le hv]
  simp only [bind_assoc, pure_bind, List.getElem?_cons_zero]
  rfl

end PlaintextVec

namespace Plaintext
variable {b : Build} {n : Nat} {par : Par} {i : Nat} {l : ContextLevel} {pt pt' : Plaintext}

theorem tryEncodeU64_single {v : List Nat} (hN : par.degree ≠ 0) (hv : v.length ≤ par.degree) {encoding : Encoding} (hl : par.levels[encoding.level]? = some l)
    (hop : encoding.kind = .simd → par.nttOperator ≠ none) (vt : Bool) :
    tryEncodeU64 v encoding par vt = (do let p ← PlaintextVec.encodeU64Chunk encoding.kind par vt v l.ctx; return ({ par, encoding := some encoding, polyNtt := p } : Plaintext)) := by
  unfold tryEncodeU64 PlaintextVec.tryEncodeU64
  rw [if_neg (by omega)]
  exact PlaintextVec.single hN hv hl hop _

theorem tryEncodeBig_single {v : List Nat} (hN : par.degree ≠ 0) (hv : v.length ≤ par.degree) {encoding : Encoding} (hl : par.levels[encoding.level]? = some l)
    (hop : encoding.kind = .simd → par.nttOperator ≠ none) :
    tryEncodeBigUint v encoding par = (do let p ← PlaintextVec.encodeBigUintChunk encoding.kind par v l.ctx; return ({ par, encoding := some encoding, polyNtt := p } : Plaintext)) := by
  unfold tryEncodeBigUint PlaintextVec.tryEncodeBigUint
  rw [if_neg (by omega)]
  exact PlaintextVec.single hN hv hl hop _

/-! ## The last level -/

theorem last_chunk (hw : ParWF b n par.toBfvParameters) (hl : par.levels[i]? = some l) (hlast : i + 1 = par.moduli.length) {q : Nat}
    (hq : par.moduli.head? = some q) : ∃ op ω ωi, NttOperator.WF op n ω ωi ∧ op.p.p = q ∧ ∀ v : List Nat, v.length ≤ par.degree → ∀ vt : Bool,
      PlaintextVec.encodeU64Chunk .poly par vt v l.ctx =
      lift (do return ({ ctx := l.ctx, vt, coeffs := [← if vt then op.forwardVt (padTo par.degree v) else op.forward (padTo par.degree v)], shoup := none, hasLazy := false } : Poly .ntt)) := by
  obtain ⟨h1, h2, h3⟩ := hw.ctxWF hl
  have hm : l.ctx.moduli = [q] := by
    rw [h2, show par.moduli.length - i = 1 by omega]
    cases hh : par.moduli with
    | nil => rw [hh] at hq; cases hq
    | cons a r => rw [hh] at hq; cases hq; rfl
  have hops : l.ctx.ops.length = 1 := by
    have := congrArg List.length hm
    rw [h1.level.moduli, List.length_map] at this
    exact this
  obtain ⟨op, hop⟩ := List.length_eq_one_iff.1 hops
  have hp : op.p.p = q := by
    have := h1.level.moduli
    rw [hm, hop] at this
    simpa using this.symm
  have hql : l.ctx.q.length = 1 := by rw [h1.level.q, List.length_map, hops]
  obtain ⟨ω, ωi, hwf⟩ := h1.level.ops op (by rw [hop]; simp)
  refine ⟨op, ω, ωi, hwf, hp, fun v hv vt => ?_⟩
  unfold PlaintextVec.encodeU64Chunk PlaintextVec.chunkCoefficients
  simp only []
  rw [copyPrefix_eq hv, Res.lift_some, Res.ok_bind, ← padTo_eq_tab]
  have : tryFromU64 (padTo par.degree v) l.ctx vt = some (.ok { ctx := l.ctx, vt, coeffs := [padTo par.degree v], shoup := none, hasLazy := false }) := by
    unfold tryFromU64
    rw [if_pos (by rw [padTo_length, hql, h3]; omega), hql, h3]
    have := fromShapeVec_flatten (N := par.degree) [padTo par.degree v] (by simp [padTo_length])
    rw [List.flatten_cons, List.flatten_nil, List.append_nil] at this
    rw [show [padTo par.degree v].length = 1 from rfl] at this
    rw [this]; rfl
  rw [this, Res.math_ok, Res.ok_bind]
  congr 1
  unfold intoNtt nttForward
  simp only []
  rw [hop, zipRows, zipRows]
  · unfold fwdRow
    cases vt
    · simp only [Bool.false_eq_true, if_false, Option.bind_eq_bind]
      cases op.forward (padTo par.degree v) <;> rfl
    · simp only [if_true, Option.bind_eq_bind]
      cases op.forwardVt (padTo par.degree v) <;> rfl
  · simp

/-! ## Coefficients -/

/-- What is read off any polynomial of a level. -/
theorem coefficients_any (hw : ParWF b n par.toBfvParameters) (hp : pt.par = par) (hl : par.levels[i]? = some l) {vt : Bool} {f : l.ctx.Elem}
    (h : pt.polyNtt = Fhe.enc l.ctx .ntt vt f) {q : Nat} (hq : par.moduli.head? = some q) :
    pt.coefficients = some (wrap par (tab par.degree fun j => readCoefficient par.plaintext.value q (coeff f j).val)) := by
  obtain ⟨h1, h2, h3⟩ := hw.ctxWF hl
  have hqlt : q < 2 ^ 62 := by
    have hmem : q ∈ par.moduli := List.mem_of_mem_head? (by rw [hq]; rfl)
    have := hw.moduli.range q hmem
    omega
  by_cases hc : par.plaintext.value < q
  · obtain ⟨m, hm⟩ : ∃ m, par.plaintext.small = some m := by
      rcases hw.plaintext with ⟨m, -, -, h2⟩ | ⟨h2, -⟩
      · exact ⟨m, h2⟩
      · omega
    rw [coefficients_fast hw hp hl h hm hq hc, wrap, hm]
    simp only [Option.isSome_some, if_true]
    congr 2
    unfold pbRow tab
    rw [List.map_map, ← h3]
    refine List.map_congr_left fun j _ => ?_
    simp only [Function.comp, readCoefficient]
    rw [if_pos hc]
  · rw [coefficients_slow hw hp hl h (Or.inr fun q' h' => by rw [hq] at h'; cases h'; omega)]
    congr 2
    rw [← h3]
    apply List.ext_getElem
    · simp
    · intro j g1 g2
      have hj : j < l.ctx.degree := by simpa using g2
      simp only [List.getElem_map, List.getElem_ofFn, tab, List.getElem_range, readCoefficient]
      rw [if_neg hc, coeff_of_lt f hj]

theorem readCoefficient_lt {t q x : Nat} (ht : 0 < t) : readCoefficient t q x < t := by
  unfold readCoefficient; split <;> exact Nat.mod_lt _ ht
theorem readCoefficient_le (t q x : Nat) : readCoefficient t q x ≤ x := by
  unfold readCoefficient
  split
  · exact (Nat.mod_le _ _).trans (Nat.mod_le _ _)
  · exact Nat.mod_le _ _

theorem Carries.elim (hw : ParWF b n par.toBfvParameters) {P : IntPoly par.degree} (h : pt.Carries par i P) :
    ∃ l, AtLevel b n par i l ∧ pt.polyNtt = encI l.ctx .ntt pt.polyNtt.vt P := by
  obtain ⟨c, h1, h2⟩ := h.poly
  obtain ⟨l, hl, rfl⟩ := ParWF.contextAtLevel_iff.1 h1
  have ha := AtLevel.ofGet hw hl
  exact ⟨l, ha, (isMod_iff ha.wf ha.deg).1 h2⟩

/-- Two plaintexts that are read alike. -/
structure ReadAlike (pt pt' : Plaintext) : Prop where
  par : pt.par = pt'.par
  encoding : pt.encoding = pt'.encoding
  ctx : pt.polyNtt.ctx = pt'.polyNtt.ctx
  coefficients : pt.coefficients = pt'.coefficients

namespace ReadAlike
variable (h : ReadAlike pt pt')
include h

theorem level : pt.level = pt'.level := by unfold Plaintext.level; rw [h.par, h.ctx]
theorem resolve (e : Option Encoding) : pt.resolveEncoding e = pt'.resolveEncoding e := by unfold resolveEncoding; rw [h.encoding]
theorem simd (v : List Nat) : pt.decodeSimdU64 v = pt'.decodeSimdU64 v := by unfold decodeSimdU64; rw [h.par]
theorem decodeU64 (e : Option Encoding) : pt.decodeU64 e = pt'.decodeU64 e := by
  unfold Plaintext.decodeU64; simp only [h.resolve, h.coefficients, h.simd]
theorem decodeBigUint (e : Option Encoding) : pt.decodeBigUint e = pt'.decodeBigUint e := by
  unfold Plaintext.decodeBigUint; simp only [h.resolve, h.coefficients, h.simd]
theorem decodeI64 (e : Option Encoding) : pt.decodeI64 e = pt'.decodeI64 e := by
  unfold Plaintext.decodeI64; rw [h.decodeU64, h.decodeBigUint, h.par]
theorem toPoly : pt.toPoly = pt'.toPoly := by
  unfold Plaintext.toPoly; rw [h.level, h.par, h.coefficients]
theorem validateFor (par : Par) : pt.validateFor par = pt'.validateFor par := by
  unfold Plaintext.validateFor validateContext; rw [h.par, h.level, h.ctx]
theorem addPlain (a : Ciphertext) : a.addPlain pt = a.addPlain pt' := by
  unfold Ciphertext.addPlain; rw [h.par, h.level, h.toPoly]
theorem subPlain (a : Ciphertext) : a.subPlain pt = a.subPlain pt' := by
  unfold Ciphertext.subPlain; rw [h.par, h.level, h.toPoly]
theorem plainSub (a : Ciphertext) : Ciphertext.plainSub pt a = Ciphertext.plainSub pt' a := by
  unfold Ciphertext.plainSub; rw [h.subPlain]
theorem skEncrypt (g : Prg) (sk : SecretKey) (seed : Seed) (rng : Nat → Nat) : sk.tryEncrypt g pt seed rng = sk.tryEncrypt g pt' seed rng := by
  unfold SecretKey.tryEncrypt; rw [h.validateFor, h.toPoly]
theorem pkEncrypt (pk : PublicKey) (rngU rng1 rng2 : Nat → Nat) : pk.tryEncrypt pt rngU rng1 rng2 = pk.tryEncrypt pt' rngU rng1 rng2 := by
  unfold PublicKey.tryEncrypt; rw [h.validateFor, h.level, h.toPoly]

end ReadAlike

theorem Carries.read (hw : ParWF b n par.toBfvParameters) {P : IntPoly par.degree} (h : pt.Carries par i P) (hP : ∀ j, 0 ≤ P j ∧ P j < (par.modulusAt i : Int)) {q : Nat}
    (hq : par.moduli.head? = some q) :
    ∃ (pt' : Plaintext) (m' : par.Msg), pt'.Holds par i m' ∧ ReadAlike pt pt' ∧ ∀ j, m' j = (readCoefficient par.plaintext.value q (P j).toNat : ZMod par.plaintext.value) := by
  have ht := hw.t_pos
  obtain ⟨l, ha, hpoly⟩ := h.elim hw
  have := ha.wf.neZero
  have hl := ha.get
  have hQ := hw.modulusAt_eq hl
  have hval : ∀ j, (coeff (ofInt l.ctx P) j).val = (coeff P j).toNat := by
    intro j
    by_cases hj : j < par.degree
    · rw [coeff_of_lt _ (by rw [ha.deg]; exact hj)]
      show (((coeff P j : Int) : ZMod l.ctx.modulus)).val = _
      rw [coeff_of_lt P hj]
      obtain ⟨h1, h2⟩ := hP ⟨j, hj⟩
      obtain ⟨k, hk⟩ := Int.eq_ofNat_of_zero_le h1
      rw [hk] at h2 ⊢
      rw [Int.cast_natCast, Int.toNat_natCast, ZMod.val_natCast, Nat.mod_eq_of_lt]
      rw [hQ]; exact_mod_cast h2
    · rw [show coeff (ofInt l.ctx P) j = 0 from dif_neg (by rw [ha.deg]; omega), show coeff P j = 0 from dif_neg (by omega), ZMod.val_zero]; rfl
  have hcoe := coefficients_any hw h.par_eq hl hpoly hq
  simp only [hval] at hcoe
  have hlt : ∀ x ∈ tab par.degree fun j => readCoefficient par.plaintext.value q (coeff P j).toNat, x < par.plaintext.value := by
    intro x hx
    obtain ⟨j, -, rfl⟩ := mem_tab.1 hx
    exact readCoefficient_lt (by omega)
  have hltQ : ∀ x ∈ tab par.degree fun j => readCoefficient par.plaintext.value q (coeff P j).toNat, x < l.ctx.modulus := by
    intro x hx
    obtain ⟨j, hj, rfl⟩ := mem_tab.1 hx
    refine lt_of_le_of_lt (readCoefficient_le _ _ _) ?_
    rw [← hval]; exact ZMod.val_lt _
  have hmc : msgCoeffs (msgOf par.degree par.plaintext.value (tab par.degree fun j => readCoefficient par.plaintext.value q (coeff P j).toNat)) =
      tab par.degree fun j => readCoefficient par.plaintext.value q (coeff P j).toNat := by
    rw [msgCoeffs_msgOf (by omega) hlt, padTo_of_length (length_tab _ _)]
  have hholds : Holds par { pt with polyNtt := Fhe.enc l.ctx .ntt pt.polyNtt.vt (ofNats l.ctx (tab par.degree fun j => readCoefficient par.plaintext.value q (coeff P j).toNat)) } i
      (msgOf par.degree par.plaintext.value (tab par.degree fun j => readCoefficient par.plaintext.value q (coeff P j).toNat)) :=
    holds_of_enc hw h.par_eq hl (by rw [hmc]) (by rw [hmc]; exact hltQ)
  refine ⟨_, _, hholds, ⟨rfl, rfl, by rw [hpoly]; rfl, ?_⟩, fun j => ?_⟩
  · rw [hcoe, hholds.coefficients hw, hmc]
  · show (((tab par.degree fun j => readCoefficient par.plaintext.value q (coeff P j).toNat).getD j 0 : Nat) : ZMod par.plaintext.value) = _
    rw [NttOperator.tab_getD _ j.isLt, coeff_of_lt P j.isLt]

end Plaintext

namespace Ciphertext
variable {b : Build} {n : Nat} {par : Par} {i : Nat} {s : IntPoly par.degree} {ct : Ciphertext} {m : par.Msg} {v : IntPoly par.degree}

theorem mulPlain_any (hw : ParWF b n par.toBfvParameters) (h : ct.Encrypts par s i m v) {pt : Plaintext} {P : IntPoly par.degree} (hpt : pt.Carries par i P) :
    ∃ r, ct.mulPlain pt = some r ∧ r.Encrypts par s i (m * red par.plaintext.value P) (v * P) ∧ r.c.length = ct.c.length ∧ r.seed = none := by
  have ht := hw.t_pos
  have : NeZero par.plaintext.value := ⟨by omega⟩
  obtain ⟨l, F, M, ha, hF, hM, hph⟩ := h.elim hw
  obtain ⟨l', ha', hP⟩ := hpt.elim hw
  obtain rfl : l = l' := by have := ha.get; rw [ha'.get] at this; simpa using this.symm
  obtain ⟨rs, e, hp⟩ := Parts.mul ha.wf ha.deg (vt := pt.polyNtt.vt) P hF
  rw [← hP] at e
  have hl : rs.length = ct.c.length := by rw [hp.length_eq, List.length_map, ← hF.length_eq]
  have hc := h.parts
  have hlev : pt.level = some i := Plaintext.level_eq hw hpt.par_eq ha.get (by rw [hP]; rfl)
  refine ⟨{ ct with seed := none, c := rs }, ?_, ?_, hl, rfl⟩
  · unfold mulPlain
    rw [h.par_eq, hpt.par_eq, ptrEq_self, check_eq rfl, Option.bind_eq_bind, Option.bind_some, if_neg (ne_nil_of_two hc),
      hlev, Option.bind_eq_bind, Option.bind_some, check_eq h.level_eq, Option.bind_some, Option.bind_eq_bind, e]
    rw [← h.par_eq]; rfl
  · refine Encrypts.intro ha h.par_eq h.level_eq (by show 2 ≤ rs.length; omega) hp (M := M * P) (by rw [red_mul, hM]) ?_
    rw [phase_mul s, ← mul_assoc, hph]; ring

end Ciphertext
end Fhe
