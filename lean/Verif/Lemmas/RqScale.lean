import Verif.Lemmas.RqSer
import Verif.Props.Scaler
/-! Scaling of polynomials between contexts. -/
namespace Fhe
open NttOperator Nega Poly

theorem zipRows_fwd_sub {b : Build} {c : Context} {n : Nat} (h : c.WF b n) (f : c.Elem) (vt : Bool) {ops : List NttOperator} (hs : ∀ op ∈ ops, op ∈ c.ops) :
    zipRows (fwdRow vt) (ops.map fun op => encRow .powerBasis f op) ops = some (ops.map fun op => encRow .ntt f op) := by
  have := h.neZero
  conv_lhs => enter [3]; rw [← List.map_id ops]
  refine zipRows_map fun op hop => ?_
  obtain ⟨ω, ωi, hw⟩ := h.level.ops op (hs op hop)
  exact forward_nttRow hw h.level.degree (h.dvd (hs op hop)) f vt

theorem encRow_congr {N N' Q Q' : Nat} {f : Nega N (ZMod Q)} {g : Nega N' (ZMod Q')} {op : NttOperator} (r : Rep) (h : pbRow f op.p.p = pbRow g op.p.p) :
    encRow r f op = encRow r g op := by
  cases r <;> simp only [encRow, nttRow, h]

theorem takeWhile_length_get {α : Type} {P : α → Bool} {l : List α} {i : Nat} (hi : i < (l.takeWhile P).length) (hi' : i < l.length) : P l[i] = true := by
  have h1 : (l.takeWhile P)[i] = l[i] := (List.takeWhile_prefix P).getElem hi
  rw [← h1]
  exact List.all_eq_true.1 List.all_takeWhile _ (List.getElem_mem hi)

theorem sub_emod_of_dvd {X M p : Int} (h : p ∣ M) : (X - M) % p = X % p := by
  obtain ⟨k, rfl⟩ := h; exact Int.sub_mul_emod_self_left ..

variable {b : Build} {c c' : Context} {n : Nat}

theorem Context.WF.op_unique (h : c.WF b n) (h' : c'.WF b n) {op op' : NttOperator} (ho : op ∈ c.ops) (ho' : op' ∈ c'.ops) (e : op.p.p = op'.p.p) : op = op' := by
  have h1 := h.level.newOp op ho
  have h2 := h'.level.newOp op' ho'
  rw [e, h2] at h1
  exact (Prod.mk.inj (Except.ok.inj (Option.some.inj h1))).2.symm

theorem Context.WF.modulus_eq (h : c.WF b n) : c.modulus = c.moduli.prod := by
  rw [Context.modulus, ← h.level.rns_moduli]; exact h.level.rns.product

/-- The number of common moduli, and what it means. -/
theorem common_ops (h : c.WF b n) (h' : c'.WF b n) (m : Nat) (hm : m ≤ ((c.q.zip c'.q).takeWhile fun x => x.1 = x.2).length) :
    c.ops.take m = c'.ops.take m ∧ m ≤ c'.ops.length := by
  have hz : m ≤ (c.q.zip c'.q).length := hm.trans (List.takeWhile_prefix _).length_le
  have hl1 : m ≤ c.ops.length := by
    rw [List.length_zip, h.level.q, List.length_map] at hz; omega
  have hl2 : m ≤ c'.ops.length := by
    rw [List.length_zip, h'.level.q, List.length_map] at hz; omega
  refine ⟨?_, hl2⟩
  apply List.ext_getElem (by simp; omega)
  intro i h1 h2
  rw [List.getElem_take, List.getElem_take]
  have him : i < m := by rw [List.length_take] at h1; omega
  have hP := takeWhile_length_get (P := fun x : Modulus × Modulus => decide (x.1 = x.2)) (l := c.q.zip c'.q) (i := i) (by omega) (by omega)
  rw [List.getElem_zip] at hP
  have hP := of_decide_eq_true hP
  simp only [h.level.q, h'.level.q, List.getElem_map] at hP
  exact h.op_unique h' (List.getElem_mem _) (List.getElem_mem _) (by rw [hP])

theorem Scaler.scale_enc (h : c.WF b n) (h' : c'.WF b n) (hk : c.moduli.length ≤ 64) {num den : Nat} (hd : den ≠ 0)
    (hroom : Spec.scalerRoom c.moduli c.rns.garner num den ≤ 2 ^ 65) :
    ∃ (F : ScalingFactor) (s : Scaler) (G : c.Elem → c'.Elem), ScalingFactor.new num den = some F ∧ Scaler.new c c' F = some (.ok s) ∧
      s.src = c ∧ s.dst = c' ∧
      (∀ f (j : Nat), ∃ z : Int, Spec.IsScaled c.modulus num den (coeff f j).val z ∧ (j < c'.degree → coeff (G f) j = (z : ZMod c'.modulus))) ∧
      ∀ (r : Rep) (vt : Bool) (f : c.Elem), r ≠ .nttShoup → s.scale (enc c r vt f) = some (.ok (enc c' r vt (G f))) := by
  classical
  have := h.neZero
  have := h'.neZero
  obtain ⟨F, sc, hF, hsc, hspec⟩ := Props.C21_scale h.level.rns_new h'.level.rns_new hk hd hroom
  have hFv : F = { numerator := num, denominator := den, isOne := decide (num = den) } := by
    unfold ScalingFactor.new at hF
    rw [check_eq hd] at hF
    exact (Option.some.inj hF).symm
  set m : Nat := if F.isOne then ((c.q.zip c'.q).takeWhile fun x => x.1 = x.2).length else 0 with hm
  have hone : 0 < m → num = den := by
    intro hpos
    by_contra hne
    rw [hm, hFv] at hpos
    simp [hne] at hpos
  obtain ⟨htake, hml⟩ := common_ops h h' m (by rw [hm]; split <;> omega)
  have hNN : c.degree = c'.degree := by rw [h.level.degree, h'.level.degree]
  have hlen' : c'.q.length = c'.ops.length := by rw [h'.level.q, List.length_map]
  have hlenm' : c'.moduli.length = c'.ops.length := by rw [h'.level.moduli, List.length_map]
  -- one value
  have hval : ∀ x : Nat, ∃ z : Int, x < c.modulus → Spec.IsScaled c.modulus num den x z ∧
      (m < c'.ops.length → sc.scale (c.ops.map fun op => x % op.p.p) (c'.ops.length - m) m =
        some ((c'.ops.drop m).map fun op => (z % (op.p.p : Int)).toNat)) := by
    intro x
    by_cases hx : x < c.modulus
    swap
    · exact ⟨0, fun hh => absurd hh hx⟩
    have hxr : c.ops.map (fun op => x % op.p.p) = c.moduli.map (x % ·) := by rw [h.level.moduli, List.map_map]; rfl
    by_cases hmc : m < c'.ops.length
    · obtain ⟨x', cc, z, out, e1, e2, e3, e4, e5, e6, e7, e8, e9⟩ := hspec (c.moduli.map (x % ·)) (by simp) (by
        intro i hi hi'
        rw [List.getElem_map]
        exact Nat.mod_lt _ (h.supported.prime _ (List.getElem_mem hi)).pos) (c'.ops.length - m) m (by omega) (by omega)
      have hxx := RnsContext.lift_residues h.level.rns x
      rw [h.level.rns_moduli, e1] at hxx
      have : x' = x := by
        rw [Option.some.inj hxx]; exact Nat.mod_eq_of_lt hx
      subst this
      refine ⟨z, fun _ => ⟨⟨cc, e3, e4, e5, e6, e7⟩, fun _ => ?_⟩⟩
      rw [hxr, e2]
      congr 1
      apply List.ext_getElem?
      intro i
      by_cases hi : i < c'.ops.length - m
      · rw [e9 i hi (by omega), List.getElem?_map, List.getElem?_drop, List.getElem?_eq_getElem (by omega)]
        simp only [h'.level.moduli, List.getElem_map]; rfl
      · rw [List.getElem?_eq_none (by omega), List.getElem?_eq_none (by simp; omega)]
    · have hnd : num = den := hone (by have : 0 < c'.ops.length := by rw [← hlenm']; exact h'.length_pos
                                       omega)
      by_cases hcen : 2 * x ≤ c.modulus
      · refine ⟨x, fun _ => ⟨⟨x, Or.inl rfl, ?_, ?_, ?_, fun _ => rfl⟩, fun hh => absurd hh hmc⟩⟩
        · rw [abs_of_nonneg (by omega)]; omega
        · rw [hnd]; have : (0 : Int) < den := by exact_mod_cast Nat.pos_of_ne_zero hd
          linarith
        · rw [hnd]; have : (0 : Int) < den := by exact_mod_cast Nat.pos_of_ne_zero hd
          linarith
      · refine ⟨(x : Int) - c.modulus, fun _ => ⟨⟨(x : Int) - c.modulus, Or.inr rfl, ?_, ?_, ?_, fun _ => rfl⟩, fun hh => absurd hh hmc⟩⟩
        · rw [abs_of_nonpos (by omega)]; omega
        · rw [hnd]; have : (0 : Int) < den := by exact_mod_cast Nat.pos_of_ne_zero hd
          linarith
        · rw [hnd]; have : (0 : Int) < den := by exact_mod_cast Nat.pos_of_ne_zero hd
          linarith
  choose Z hZ using hval
  have hZ' : ∀ (f : c.Elem) (j : Nat), _ := fun f j => hZ (coeff f j).val (ZMod.val_lt _)
  refine ⟨F, ⟨c, c', m, sc⟩, fun f => Nega.ofFn fun j => (Z (coeff f j).val : ZMod c'.modulus), hF, ?_, rfl, rfl, ?_, ?_⟩
  · unfold Scaler.new
    rw [if_neg (by rw [hNN]; simp), hsc]
    rfl
  · intro f j
    exact ⟨_, (hZ' f j).1, fun hj => by rw [coeff_of_lt _ hj]; rfl⟩
  intro r vt f hr
  set g : c'.Elem := Nega.ofFn fun j => (Z (coeff f j).val : ZMod c'.modulus) with hg
  -- rows of the result
  have hpb : ∀ op ∈ c'.ops, pbRow g op.p.p = tab c.degree fun j => (Z (coeff f j).val % (op.p.p : Int)).toNat := by
    intro op hop
    obtain ⟨ω, ωi, hw⟩ := h'.level.ops op hop
    have : NeZero op.p.p := ⟨hw.prime.ne_zero⟩
    have e : ∀ X : Nat → Nat, tab c'.degree X = tab c.degree X := fun X => by rw [hNN]
    rw [hg, pbRow_ofFn (h'.dvd hop), e]
    refine tab_congr fun j _ => ?_
    rw [map_intCast]
    have := ZMod.val_intCast (n := op.p.p) (Z (coeff f j).val)
    omega
  have hcommon : ∀ op ∈ c'.ops.take m, encRow r f op = encRow r g op := by
    intro op hop
    apply encRow_congr
    have hop1 : op ∈ c.ops := List.mem_of_mem_take (htake ▸ hop)
    have hop2 : op ∈ c'.ops := List.mem_of_mem_take hop
    have hmpos : 0 < m := by
      rcases Nat.eq_zero_or_pos m with h0 | h0
      · rw [h0] at hop; simp at hop
      · exact h0
    rw [hpb op hop2]
    unfold pbRow
    refine tab_congr fun j _ => ?_
    obtain ⟨cc, hcc, -, -, -, hz⟩ := (hZ' f j).1
    rw [hz (hone hmpos)]
    have hdv : (op.p.p : Int) ∣ c.modulus := by exact_mod_cast h.dvd hop1
    rcases hcc with e | e
    · rw [e]; exact_mod_cast (Int.toNat_natCast _).symm
    · rw [e, sub_emod_of_dvd hdv]; exact_mod_cast (Int.toNat_natCast _).symm
  have hfirst : (enc c r vt f).coeffs.take m = (c'.ops.take m).map fun op => encRow r g op := by
    change (c.ops.map fun op => encRow r f op).take m = _
    rw [← List.map_take, htake]
    exact List.map_congr_left fun op hop => hcommon op hop
  have hgcoeffs : (enc c' r vt g).coeffs = ((c'.ops.take m).map fun op => encRow r g op) ++ (c'.ops.drop m).map fun op => encRow r g op := by
    change (c'.ops.map fun op => encRow r g op) = _
    rw [← List.map_append, List.take_append_drop]
  have hres : ∀ rows, rows = (enc c' r vt g).coeffs → (Poly.mk (r := r) c' false vt rows none) = enc c' r vt g := by
    intro rows e
    rw [e]; unfold enc
    simp only [if_neg hr]
  unfold Scaler.scale
  rw [if_neg (by simp [enc])]
  simp only
  by_cases hmc : m < c'.q.length
  · rw [if_pos hmc]
    have hsrc : sourceRows (enc c r vt f) = some (c.ops.map fun op => tab c.degree fun j => (coeff f j).val % op.p.p) := by
      unfold sourceRows
      cases r with
      | powerBasis => rfl
      | ntt => rw [if_neg (by decide)]; exact zipRows_bwd h f vt
      | nttShoup => exact absurd rfl hr
    rw [hsrc]
    simp only [Option.bind_eq_bind, Option.bind_some]
    rw [show (enc c r vt f).ctx.degree = c.degree from rfl, columns_map, Option.bind_some, hlen',
      tab_mapM (g := fun j => (c'.ops.drop m).map fun op => (Z (coeff f j).val % (op.p.p : Int)).toNat) fun j _ => (hZ' f j).2 (by omega), Option.bind_some]
    have hnew : ((List.range (c'.ops.length - m)).mapM fun i => (tab c.degree fun j => (c'.ops.drop m).map fun op => (Z (coeff f j).val % (op.p.p : Int)).toNat).mapM
        fun col => col[i]?) = some ((c'.ops.drop m).map fun op => encRow .powerBasis g op) := by
      have hdrop : ((c'.ops.drop m).map fun op => encRow .powerBasis g op) = tab (c'.ops.length - m) fun i => ((c'.ops.drop m).map fun op => encRow .powerBasis g op).getD i [] := by
        conv_lhs => rw [eq_tab_getD ((c'.ops.drop m).map fun op => encRow .powerBasis g op) []]
        rw [List.length_map, List.length_drop]
      rw [hdrop]
      have := tab_mapM (f := id) (n := c'.ops.length - m) (F := fun i => (tab c.degree fun j => (c'.ops.drop m).map fun op => (Z (coeff f j).val % (op.p.p : Int)).toNat).mapM
        fun col => col[i]?) (g := fun i => ((c'.ops.drop m).map fun op => encRow .powerBasis g op).getD i []) (fun i hi => by
          have hi2 : i < (c'.ops.drop m).length := by rw [List.length_drop]; exact hi
          rw [List.getD_eq_getElem?_getD, List.getElem?_map, List.getElem?_eq_getElem hi2]
          simp only [Option.map_some, Option.getD_some, id]
          rw [show encRow .powerBasis g (c'.ops.drop m)[i] = pbRow g (c'.ops.drop m)[i].p.p from rfl, hpb _ (List.mem_of_mem_drop (List.getElem_mem hi2))]
          refine tab_mapM fun j _ => ?_
          rw [List.getElem?_map, List.getElem?_eq_getElem hi2]
          rfl)
      simpa [tab] using this
    rw [hnew, Option.bind_some]
    have htgt : targetRows r vt ((c'.ops.drop m).map fun op => encRow .powerBasis g op) (c'.ops.drop m) = some ((c'.ops.drop m).map fun op => encRow r g op) := by
      unfold targetRows
      cases r with
      | powerBasis => rfl
      | ntt => rw [if_neg (by decide)]; exact zipRows_fwd_sub h' g vt fun op hop => List.mem_of_mem_drop hop
      | nttShoup => exact absurd rfl hr
    rw [show (enc c r vt f).vt = vt from rfl, htgt, Option.bind_some, hfirst, ← hgcoeffs]
    exact congrArg (fun x => some (Except.ok x)) (hres _ rfl)
  · rw [if_neg hmc, hfirst]
    refine congrArg (fun x => some (Except.ok x)) (hres _ ?_)
    rw [hgcoeffs, List.drop_eq_nil_of_le (as := c'.ops) (by omega), List.map_nil, List.append_nil]

end Fhe
