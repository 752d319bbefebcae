import Verif.Lemmas.Memory
import Verif.Lemmas.ScalerMain
/-! Unchecked accesses: the scaler. -/
namespace Fhe.Memory
open Release

variable {α β : Type}

theorem collect_ok {f : Nat → Outcome α} {g : Nat → α} (left i : Nat) (h : ∀ k, i ≤ k → k < i + left → f k = .returned (g k)) :
    collect f left i = .returned ((List.range' i left).map g) := by
  induction left generalizing i with
  | zero => rfl
  | succ left ih =>
    unfold collect
    rw [h i (le_refl _) (by omega), ret_bind, ih (i + 1) (fun k h1 h2 => h k (by omega) (by omega)), ret_bind]
    simp [List.range'_succ]

theorem collect_undefined {f : Nat → Outcome α} {g : Nat → α} (left i k : Nat) (hk : i ≤ k) (hk' : k < i + left) (h : ∀ j, i ≤ j → j < k → f j = .returned (g j))
    (hu : f k = .undefined) : collect f left i = .undefined := by
  induction left generalizing i with
  | zero => omega
  | succ left ih =>
    unfold collect
    rcases Nat.eq_or_lt_of_le hk with rfl | hlt
    · rw [hu]; rfl
    · rw [h i (le_refl _) hlt, ret_bind, ih (i + 1) hlt (by omega) (fun j h1 h2 => h j (by omega) h2)]; rfl

theorem mapLoop_map {f : α → Timed β} {g : α → β} {l : List α} (h : ∀ x ∈ l, (f x).result = some (g x)) : (mapLoop f l).result = some (l.map g) := by
  induction l with
  | nil => rfl
  | cons x xs ih =>
    show ((branchOn True >>= fun _ => f x >>= fun y => mapLoop f xs >>= fun ys => (pure (y :: ys) : Timed _))).result = _
    rw [bind_result_eq (show (branchOn True).result = some _ from rfl), bind_result_eq (h x (by simp)), bind_result_eq (ih fun y hy => h y (by simp [hy]))]
    rfl

/-- The sizes of the tables. -/
structure Tables (s : RnsScaler) (D S : Nat) : Prop where
  moduli : s.dst.moduli.length = D
  gamma : s.gamma.length = D
  gammaShoup : s.gammaShoup.length = D
  omega : s.omega.length = D
  omegaShoup : s.omegaShoup.length = D
  rows : ∀ r ∈ s.omega, r.length = S
  rowsShoup : ∀ r ∈ s.omegaShoup, r.length = S

theorem mapM_mem {f : α → Option β} {l : List α} {l' : List β} (h : l.mapM f = some l') {y : β} (hy : y ∈ l') : ∃ x ∈ l, f x = some y := by
  induction l generalizing l' with
  | nil => simp at h; subst h; simp at hy
  | cons a l ih =>
    rw [List.mapM_cons] at h
    cases ha : f a with
    | none => simp [ha] at h
    | some b =>
      cases hr : l.mapM f with
      | none => simp [ha, hr] at h
      | some lr =>
        simp [ha, hr] at h
        subst h
        rcases List.mem_cons.1 hy with rfl | hy
        · exact ⟨a, by simp, ha⟩
        · obtain ⟨x, hx, hx'⟩ := ih hr hy
          exact ⟨x, by simp [hx], hx'⟩

theorem tables_of_new {src dst : RnsContext} (hs : src.WF) (ht : dst.WF) {f : ScalingFactor} {s : RnsScaler} (h : RnsScaler.new src dst f = some s) :
    Tables s dst.moduliU64.length src.moduliU64.length := by
  unfold RnsScaler.new at h
  simp only [Option.bind_eq_bind, Option.bind_eq_some_iff, Option.pure_def, Option.some.injEq] at h
  obtain ⟨⟨gamma, lo, hi, sg⟩, h1, gs, h2, oms, h3, omega, h4, omegaShoup, h5, shift, h6, th, h7, rfl⟩ := h
  have hg : gamma.length = dst.moduliU64.length := by
    unfold RnsScaler.extractProjectionAndTheta at h1
    simp only [Option.bind_eq_bind, Option.bind_eq_some_iff, Option.pure_def, Option.some.injEq] at h1
    obtain ⟨-, -, pr, e1, ⟨_, _⟩, e2, e3⟩ := h1
    have e4 : pr = gamma := (Prod.mk.inj e3).1
    rw [← e4]
    unfold RnsContext.project at e1
    exact RnsScaler.mapM_length e1
  have hm := ht.len_moduli
  have l1 := RnsScaler.mapM_length h2
  have l2 := RnsScaler.mapM_length h3
  have l3 := RnsScaler.mapM_length h4
  have l4 := RnsScaler.mapM_length h5
  rw [List.length_zip] at l1 l4
  rw [List.length_range] at l3
  have hrow : ∀ r ∈ omega, r.length = src.moduliU64.length := by
    intro r hr
    obtain ⟨j, -, hj⟩ := mapM_mem h4 hr
    simp only [Option.bind_eq_some_iff] at hj
    obtain ⟨q, -, hq⟩ := hj
    rw [RnsScaler.mapM_length hq, l2, hs.len_garner]
  simp only [] at l1
  have m1 : gs.length = dst.moduliU64.length := by omega
  have m2 : omega.length = dst.moduliU64.length := by omega
  have m3 : omegaShoup.length = dst.moduliU64.length := by omega
  refine ⟨hm, hg, m1, m2, m3, hrow, ?_⟩
  intro r hr
  obtain ⟨⟨q, o⟩, hx, hj⟩ := mapM_mem h5 hr
  rw [RnsScaler.mapM_length hj]
  exact hrow _ (List.of_mem_zip hx).2

theorem accumulate_ok (q : Modulus) {rests om oms : List Nat} (h1 : rests.length ≤ om.length) (h2 : rests.length ≤ oms.length) (left j y : Nat)
    (hj : j + left = rests.length) :
    ∃ r, accumulate q rests om oms left j y = .returned r ∧ (Release.accumulate q (rests.drop j) (om.drop j) (oms.drop j) y).result = some r := by
  induction left generalizing j y with
  | zero =>
    refine ⟨y, rfl, ?_⟩
    rw [List.drop_of_length_le (show rests.length ≤ j by omega)]
    unfold Release.accumulate; rfl
  | succ left ih =>
    have a1 : j < rests.length := by omega
    obtain ⟨x, hx⟩ := total_lazyMulShoup q rests[j] om[j] oms[j]
    obtain ⟨r, e1, e2⟩ := ih (j + 1) (wadd128 y x) (by omega)
    refine ⟨r, ?_, ?_⟩
    · unfold accumulate
      rw [checked_lt a1, ret_bind, unchecked_lt (by omega), ret_bind, unchecked_lt (by omega), ret_bind, safe_some hx, ret_bind]
      exact e1
    · rw [List.drop_eq_getElem_cons a1, List.drop_eq_getElem_cons (show j < om.length by omega), List.drop_eq_getElem_cons (show j < oms.length by omega)]
      unfold Release.accumulate
      rw [bind_result_eq (show (branchOn True).result = some _ from rfl), bind_result_eq hx]
      exact e2

theorem accumulate_undefined (q : Modulus) {rests om oms : List Nat} (h1 : om.length < rests.length) (h2 : oms.length = om.length) (left j y : Nat)
    (hj : j + left = rests.length) (hj' : j ≤ om.length) : accumulate q rests om oms left j y = .undefined := by
  induction left generalizing j y with
  | zero => omega
  | succ left ih =>
    unfold accumulate
    rw [checked_lt (by omega), ret_bind]
    rcases Nat.eq_or_lt_of_le hj' with hj' | hj'
    · rw [unchecked_ge (by omega)]; rfl
    · rw [unchecked_lt hj', ret_bind, unchecked_lt (by omega), ret_bind]
      obtain ⟨x, hx⟩ := total_lazyMulShoup q rests[j] om[j] oms[j]
      rw [safe_some hx, ret_bind]
      exact ih _ _ (by omega) (by omega)

theorem total_addW (q : Modulus) (one sg : Bool) (w q2 y : Nat) : Total (addW q one sg w q2 y) :=
  (Total.branch _).bind fun _ => Total.ite (Total.pure _) ((total_lazyReduceU128 ..).bind fun _ => (Total.branch _).bind fun _ => Total.ite (Total.pure _) (Total.pure _))
theorem total_sumThetaGarner (los his rests : List Nat) (acc : Nat) : Total (sumThetaGarner los his rests acc) := by
  induction los generalizing his rests acc with
  | nil => unfold sumThetaGarner; exact (Total.branch _).bind fun _ => Total.pure _
  | cons lo los ih =>
    rcases his with _ | ⟨hi, his⟩
    · unfold sumThetaGarner; exact (Total.branch _).bind fun _ => Total.pure _
    rcases rests with _ | ⟨r, rests⟩
    · unfold sumThetaGarner; exact (Total.branch _).bind fun _ => Total.pure _
    unfold sumThetaGarner
    exact (Total.branch _).bind fun _ => ih ..
theorem total_sumThetaOmega (los his : List Nat) (sg : List Bool) (rests : List Nat) (acc : Nat) : Total (sumThetaOmega los his sg rests acc) := by
  induction los generalizing his sg rests acc with
  | nil => unfold sumThetaOmega; exact (Total.branch _).bind fun _ => Total.pure _
  | cons lo los ih =>
    rcases his with _ | ⟨hi, his⟩
    · unfold sumThetaOmega; exact (Total.branch _).bind fun _ => Total.pure _
    rcases sg with _ | ⟨s, sg⟩
    · unfold sumThetaOmega; exact (Total.branch _).bind fun _ => Total.pure _
    rcases rests with _ | ⟨r, rests⟩
    · unfold sumThetaOmega; exact (Total.branch _).bind fun _ => Total.pure _
    unfold sumThetaOmega
    exact (Total.branch _).bind fun _ => (Total.branch _).bind fun _ => Total.ite (ih ..) (ih ..)
theorem total_roundW (s : Nat) : Total (roundW s) := (Total.branch _).bind fun _ => Total.ite (Total.pure _) (Total.pure _)
theorem total_computeW (s : RnsScaler) (rests : List Nat) (v : Nat) : Total (computeW s rests v) :=
  (Total.branch _).bind fun _ => Total.ite (Total.pure _) ((total_sumThetaOmega ..).bind fun _ => (Total.branch _).bind fun _ => Total.ite (total_roundW _) (total_roundW _))

variable {s : RnsScaler} {D S : Nat}

theorem scaleOne_ok (h : Tables s D S) (rests : List Nat) (v : Nat) (sg : Bool) (w idx : Nat) (hi : idx < D) (hr : rests.length ≤ S) :
    ∃ r, scaleOne s rests v sg w idx = .returned r ∧ (Release.scaleOne s rests v sg w idx).result = some r := by
  have i1 : idx < s.dst.moduli.length := by rw [h.moduli]; exact hi
  have i2 : idx < s.omega.length := by rw [h.omega]; exact hi
  have i3 : idx < s.omegaShoup.length := by rw [h.omegaShoup]; exact hi
  have i4 : idx < s.gamma.length := by rw [h.gamma]; exact hi
  have i5 : idx < s.gammaShoup.length := by rw [h.gammaShoup]; exact hi
  obtain ⟨x, hx⟩ := total_reduceU128 s.dst.moduli[idx] v
  obtain ⟨x', hx'⟩ := total_lazyMulShoup s.dst.moduli[idx] x s.gamma[idx] s.gammaShoup[idx]
  obtain ⟨y, hy⟩ := total_addW s.dst.moduli[idx] s.factor.isOne sg w (wmul64 s.dst.moduli[idx].p 2) (wsub 64 (wmul64 s.dst.moduli[idx].p 2) x')
  obtain ⟨z, hz, hz'⟩ := accumulate_ok s.dst.moduli[idx] (rests := rests) (om := s.omega[idx]) (oms := s.omegaShoup[idx])
    (by rw [h.rows _ (List.getElem_mem _)]; exact hr) (by rw [h.rowsShoup _ (List.getElem_mem _)]; exact hr) rests.length 0 y (by omega)
  obtain ⟨r, hr⟩ := total_reduceU128 s.dst.moduli[idx] z
  refine ⟨r, ?_, ?_⟩
  · unfold scaleOne
    rw [unchecked_lt i1, ret_bind, unchecked_lt i2, ret_bind, unchecked_lt i3, ret_bind, unchecked_lt i4, ret_bind, unchecked_lt i5, ret_bind]
    simp only []
    rw [safe_some hx, ret_bind, safe_some hx', ret_bind, safe_some hy, ret_bind, hz, ret_bind, safe_some hr]
  · unfold Release.scaleOne
    rw [bind_result_eq (show (fetch s.dst.moduli idx).result = some _ from List.getElem?_eq_getElem i1),
      bind_result_eq (show (fetch s.omega idx).result = some _ from List.getElem?_eq_getElem i2),
      bind_result_eq (show (fetch s.omegaShoup idx).result = some _ from List.getElem?_eq_getElem i3),
      bind_result_eq (show (fetch s.gamma idx).result = some _ from List.getElem?_eq_getElem i4),
      bind_result_eq (show (fetch s.gammaShoup idx).result = some _ from List.getElem?_eq_getElem i5)]
    simp only []
    rw [bind_result_eq hx, bind_result_eq hx', bind_result_eq hy]
    rw [bind_result_eq (by simpa using hz'), hr]

theorem scaleOne_idx (h : Tables s D S) (rests : List Nat) (v : Nat) (sg : Bool) (w idx : Nat) (hi : D ≤ idx) : scaleOne s rests v sg w idx = .undefined := by
  unfold scaleOne
  rw [unchecked_ge (by rw [h.moduli]; exact hi)]; rfl

theorem scaleOne_rests (h : Tables s D S) (rests : List Nat) (v : Nat) (sg : Bool) (w idx : Nat) (hi : idx < D) (hr : S < rests.length) :
    scaleOne s rests v sg w idx = .undefined := by
  have i1 : idx < s.dst.moduli.length := by rw [h.moduli]; exact hi
  have i2 : idx < s.omega.length := by rw [h.omega]; exact hi
  have i3 : idx < s.omegaShoup.length := by rw [h.omegaShoup]; exact hi
  have i4 : idx < s.gamma.length := by rw [h.gamma]; exact hi
  have i5 : idx < s.gammaShoup.length := by rw [h.gammaShoup]; exact hi
  obtain ⟨x, hx⟩ := total_reduceU128 s.dst.moduli[idx] v
  obtain ⟨x', hx'⟩ := total_lazyMulShoup s.dst.moduli[idx] x s.gamma[idx] s.gammaShoup[idx]
  obtain ⟨y, hy⟩ := total_addW s.dst.moduli[idx] s.factor.isOne sg w (wmul64 s.dst.moduli[idx].p 2) (wsub 64 (wmul64 s.dst.moduli[idx].p 2) x')
  unfold scaleOne
  rw [unchecked_lt i1, ret_bind, unchecked_lt i2, ret_bind, unchecked_lt i3, ret_bind, unchecked_lt i4, ret_bind, unchecked_lt i5, ret_bind]
  simp only []
  rw [safe_some hx, ret_bind, safe_some hx', ret_bind, safe_some hy, ret_bind, accumulate_undefined]
  · rfl
  · rw [h.rows _ (List.getElem_mem _)]; exact hr
  · rw [h.rows _ (List.getElem_mem _), h.rowsShoup _ (List.getElem_mem _)]
  · omega
  · omega

theorem scale_eq (h : Tables s D S) (rests : List Nat) (size st : Nat) :
    if size = 0 ∨ (st + size ≤ D ∧ rests.length ≤ S) then
      ∃ out, scale s rests size st = .returned out ∧ out.length = size ∧ (Release.rnsScale s rests size st).result = some out
    else scale s rests size st = .undefined := by
  obtain ⟨sum, h1⟩ := total_sumThetaGarner s.thetaGarnerLo s.thetaGarnerHi rests 0
  obtain ⟨v, h2⟩ : Total (roundV sum s.thetaGarnerShift) := ⟨_, rfl⟩
  obtain ⟨⟨sg, w⟩, h3⟩ := total_computeW s rests v
  have hs : scale s rests size st = collect (fun i => scaleOne s rests v sg w (st + i)) size 0 := by
    unfold scale
    rw [safe_some h1, ret_bind, safe_some h2, ret_bind, safe_some h3, ret_bind]
  have hr : (Release.rnsScale s rests size st).result = (mapLoop (fun i => Release.scaleOne s rests v sg w (st + i)) (List.range size)).result := by
    unfold Release.rnsScale
    rw [bind_result_eq h1, bind_result_eq h2, bind_result_eq h3]
  rw [hs, hr]
  have hg : ∃ g : Nat → Nat, ∀ i, st + i < D → rests.length ≤ S → scaleOne s rests v sg w (st + i) = .returned (g i) ∧
      (Release.scaleOne s rests v sg w (st + i)).result = some (g i) := by
    refine ⟨fun i => match scaleOne s rests v sg w (st + i) with | .returned a => a | _ => 0, fun i hi hr => ?_⟩
    obtain ⟨r, e1, e2⟩ := scaleOne_ok h rests v sg w (st + i) hi hr
    simp only [e1]
    exact ⟨trivial, e2⟩
  obtain ⟨g, hg⟩ := hg
  split
  · rename_i hc
    refine ⟨(List.range' 0 size).map g, collect_ok _ _ fun k hk hk' => ?_, by simp, ?_⟩
    · rcases hc with rfl | hc
      · omega
      · exact (hg k (by omega) hc.2).1
    · rw [← List.range_eq_range']
      refine mapLoop_map fun k hk => ?_
      have := List.mem_range.1 hk
      rcases hc with rfl | hc
      · omega
      · exact (hg k (by omega) hc.2).2
  · rename_i hc
    push Not at hc
    obtain ⟨h0, hc⟩ := hc
    by_cases hS : rests.length ≤ S
    · have : D < st + size := by
        by_contra hh
        exact absurd (hc (by omega)) (by omega)
      refine collect_undefined (g := g) size 0 (D - st) (by omega) (by omega) (fun j _ hj => (hg j (by omega) hS).1) ?_
      exact scaleOne_idx h _ _ _ _ _ (by omega)
    · refine collect_undefined (g := g) size 0 0 (le_refl _) (by omega) (fun j _ hj => absurd hj (by omega)) ?_
      rcases Nat.lt_or_ge st D with hD | hD
      · exact scaleOne_rests h _ _ _ _ _ (by omega) (by omega)
      · exact scaleOne_idx h _ _ _ _ _ (by omega)

end Fhe.Memory
