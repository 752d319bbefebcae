import Verif.Spec.Rq
import Verif.Lemmas.RqEnc
/-! Valid polynomials are exactly the canonical representations. -/
namespace Fhe
open NttOperator Nega

theorem RnsContext.lift_residues {c : RnsContext} (h : c.WF) (x : Nat) : c.lift (c.moduliU64.map (x % ·)) = some (x % c.product) := by
  obtain ⟨y, h1, h2, -, h3⟩ := lift_eq h (r := c.moduliU64.map (x % ·)) (by simp)
  rw [h1]
  congr 1
  refine h.ext h2 (Nat.mod_lt _ h.product_pos) fun q hq => ?_
  obtain ⟨i, hi, rfl⟩ := List.getElem_of_mem hq
  rw [h3 i hi, Nat.mod_mod_of_dvd _ (by rw [h.product]; exact List.dvd_prod hq)]
  simp [List.getD_eq_getElem?_getD, hi]

theorem ofFn_eq_tab {α : Type} {n : Nat} (f : Fin n → α) (g : Nat → α) (h : ∀ i : Fin n, f i = g i) : List.ofFn f = tab n g := by
  apply List.ext_getElem
  · simp
  · intro i h1 h2
    simp only [List.length_ofFn] at h1
    simp [tab, h]

namespace Poly
variable {b : Build} {c : Context} {n : Nat} {r : Rep} {vt vt' : Bool}

theorem columns_map (N : Nat) (ops : List NttOperator) (g : NttOperator → Nat → Nat) :
    columns N (ops.map fun op => tab N (g op)) = some (tab N fun j => ops.map fun op => g op j) := by
  unfold columns
  refine (tab_mapM (f := id) (n := N) (F := column _) fun j hj => ?_ : _)|> fun h => by simpa [tab] using h
  unfold column
  rw [List.mapM_map]
  exact mapM_eq_some_map fun op _ => tab_get? _ hj

theorem toBigUint_rows (h : c.WF b n) (f : c.Elem) {s : Rep} {p : Poly s} (hc : p.ctx = c) (hp : p.coeffs = c.ops.map fun op => encRow .powerBasis f op) :
    p.toBigUint = some (List.ofFn fun j : Fin c.degree => (f j).val) := by
  have := h.neZero
  unfold toBigUint
  rw [hp, hc]
  simp only [encRow, pbRow]
  rw [columns_map, Option.bind_eq_bind, Option.bind_some, ofFn_eq_tab (g := fun j => (coeff f j).val) _ (fun i => by rw [coeff_val])]
  refine tab_mapM fun j _ => ?_
  have := RnsContext.lift_residues h.level.rns (coeff f j).val
  rw [h.level.rns_moduli, h.level.moduli, List.map_map] at this
  refine this.trans ?_
  congr 1
  exact Nat.mod_eq_of_lt (ZMod.val_lt _)

/-- Rows of the right shape come from an element. -/
theorem exists_pb (h : c.WF b n) {rows : List (List Nat)}
    (hr : List.Forall₂ (fun row op => row.length = c.degree ∧ ∀ x ∈ row, x < op.p.p) rows c.ops) :
    ∃ f : c.Elem, rows = c.ops.map fun op => pbRow f op.p.p := by
  have := h.neZero
  have hlen := hr.length_eq
  have hl : ∀ j, (rows.map (·.getD j 0)).length = c.rns.moduliU64.length := fun j => by
    rw [List.length_map, hlen, h.level.rns_moduli, h.level.moduli, List.length_map]
  choose x h1 h2 h3 h4 using fun j => RnsContext.lift_eq h.level.rns (hl j)
  refine ⟨Nega.ofFn fun j => (x j : ZMod c.modulus), ?_⟩
  apply List.ext_getElem
  · rw [List.length_map, hlen]
  intro i hi hi'
  rw [List.length_map] at hi'
  have hget := hr.get hi hi'
  simp only [List.get_eq_getElem] at hget
  rw [List.getElem_map, tab_of_length hget.1, pbRow]
  refine tab_congr fun j hj => ?_
  rw [coeff_of_lt _ hj]
  change _ = ((x j : Nat) : ZMod c.modulus).val % _
  rw [ZMod.val_natCast, Nat.mod_eq_of_lt (show x j < c.modulus from h2 j)]
  have := h4 j i (by rw [h.level.rns_moduli, h.level.moduli, List.length_map]; exact hi')
  simp only [h.level.rns_moduli, h.level.moduli, List.getElem_map] at this
  rw [this]
  simp only [List.getD_eq_getElem?_getD, List.getElem?_map, List.getElem?_eq_getElem hi, Option.map_some, Option.getD_some]
  refine (Nat.mod_eq_of_lt ?_).symm
  have := getD_lt hget.2 (k := j) (by omega)
  simpa [List.getD_eq_getElem?_getD] using this

theorem exists_ntt (h : c.WF b n) {rows : List (List Nat)}
    (hr : List.Forall₂ (fun row op => row.length = c.degree ∧ ∀ x ∈ row, x < op.p.p) rows c.ops) :
    ∃ f : c.Elem, rows = c.ops.map fun op => nttRow f op := by
  have := h.neZero
  have hlen := hr.length_eq
  have hback : ∀ i (hi : i < rows.length), ∃ row', c.ops[i]'(by omega) ∈ c.ops ∧ row'.length = c.degree ∧ (∀ x ∈ row', x < (c.ops[i]'(by omega)).p.p) ∧
      (c.ops[i]'(by omega)).forward row' = some rows[i] := by
    intro i hi
    have hi' : i < c.ops.length := by omega
    have hmem := List.getElem_mem hi'
    obtain ⟨ω, ωi, hw⟩ := h.level.ops _ hmem
    have : NeZero (c.ops[i]).p.p := ⟨hw.prime.ne_zero⟩
    have hget := hr.get hi hi'
    simp only [List.get_eq_getElem] at hget
    have hs : rows[i].length = (c.ops[i]).size := by rw [hget.1, h.level.degree, hw.size]
    refine ⟨bwdVal (c.ops[i]).p.p n ωi (c.ops[i]).sizeInv rows[i], hmem, by rw [length_bwdVal, h.level.degree], reduced_of_tab_val _, ?_⟩
    have hred := reduced_of_tab_val (p := (c.ops[i]).p.p) (k := 2 ^ n) (fun x => ((c.ops[i]).sizeInv : ZMod (c.ops[i]).p.p) *
      bwdState n (fun k => (ωi : ZMod (c.ops[i]).p.p) ^ (revBits n k + 1)) (fun i' => ((rows[i]).getD i' 0 : ZMod (c.ops[i]).p.p)) n x)
    rw [forward_eq hw (by rw [length_bwdVal, hw.size]) (fun x hx => by have := hred x hx; omega), fwdVal_bwdVal hw hs hget.2]
  choose! g g1 g2 g3 g4 using hback
  obtain ⟨f, hf⟩ := exists_pb h (rows := tab rows.length g) (by
    rw [List.forall₂_iff_get]
    refine ⟨by rw [length_tab, hlen], fun i h1 h2 => ?_⟩
    rw [length_tab] at h1
    have : (tab rows.length g)[i]'(by rw [length_tab]; exact h1) = g i := by simp [tab]
    simp only [List.get_eq_getElem, this]
    exact ⟨g2 i h1, g3 i h1⟩)
  refine ⟨f, ?_⟩
  apply List.ext_getElem
  · rw [List.length_map, hlen]
  intro i hi hi'
  rw [List.length_map] at hi'
  have e : g i = pbRow f (c.ops[i]).p.p := by
    have := congrArg (fun l => l[i]?) hf
    simp only [tab_get? _ hi, List.getElem?_map, List.getElem?_eq_getElem hi', Option.map_some] at this
    exact Option.some.inj this
  rw [List.getElem_map, nttRow, ← e, g4 i hi]; rfl

theorem exists_rows (h : c.WF b n) (r : Rep) {rows : List (List Nat)}
    (hr : List.Forall₂ (fun row op => row.length = c.degree ∧ ∀ x ∈ row, x < op.p.p) rows c.ops) :
    ∃ f : c.Elem, rows = c.ops.map fun op => encRow r f op := by
  cases r with
  | powerBasis => exact exists_pb h hr
  | ntt => exact exists_ntt h hr
  | nttShoup => exact exists_ntt h hr

theorem zipWith_shoup (h : c.WF b n) (g : NttOperator → List Nat) :
    List.zipWith (fun (row : List Nat) (q : Nat) => row.map fun x => x * 2 ^ 64 / q) (c.ops.map g) c.moduli = c.ops.map fun op => shoupRow (g op) op.p.p := by
  rw [h.level.moduli]
  apply List.ext_getElem <;> simp [shoupRow]

theorem valid_enc (h : c.WF b n) (f : c.Elem) : (enc c r vt f).Valid := by
  have := h.neZero
  have hrow : ∀ row ∈ (enc c r vt f).coeffs, ∃ op ∈ c.ops, row = encRow r f op := by
    intro row hrow
    obtain ⟨op, hop, rfl⟩ := List.mem_map.1 hrow
    exact ⟨op, hop, rfl⟩
  refine ⟨rfl, by simp [enc, h.level.moduli], fun row hr => ?_, fun i q row hq hr x hx => ?_, ?_⟩
  · obtain ⟨op, hop, rfl⟩ := hrow row hr
    obtain ⟨ω, ωi, hw⟩ := h.level.ops _ hop
    exact (encRow_reduced hw h.level.degree (h.dvd hop) r f).1
  · change c.moduli[i]? = some q at hq
    rw [h.level.moduli, List.getElem?_map] at hq
    simp only [enc, List.getElem?_map] at hr
    rcases ho : c.ops[i]? with _ | op
    · rw [ho] at hr; cases hr
    rw [ho] at hr hq
    cases hr; cases hq
    have hop : op ∈ c.ops := List.mem_of_getElem? ho
    obtain ⟨ω, ωi, hw⟩ := h.level.ops _ hop
    exact (encRow_reduced hw h.level.degree (h.dvd hop) r f).2 x hx
  · change (if r = .nttShoup then _ else _) = _
    rw [show (enc c r vt f).coeffs = c.ops.map (encRow r f) from rfl, show (enc c r vt f).ctx.moduli = c.moduli from rfl, zipWith_shoup h]

theorem exists_enc (h : c.WF b n) {p : Poly r} (hc : p.ctx = c) (hv : p.Valid) : ∃ f : c.Elem, p = enc c r p.vt f := by
  subst hc
  obtain ⟨f, hf⟩ := exists_rows h r (rows := p.coeffs) (by
    have hl : p.coeffs.length = p.ctx.ops.length := by rw [hv.rows, h.level.moduli, List.length_map]
    rw [List.forall₂_iff_get]
    refine ⟨hl, fun i h1 h2 => ?_⟩
    simp only [List.get_eq_getElem]
    refine ⟨hv.columns _ (List.getElem_mem h1), hv.reduced i _ _ ?_ (List.getElem?_eq_getElem h1)⟩
    rw [h.level.moduli, List.getElem?_map, List.getElem?_eq_getElem h2]; rfl)
  refine ⟨f, ?_⟩
  have h1 := hv.notLazy
  have h2 := hv.shoup
  rw [hf, zipWith_shoup h] at h2
  calc p = ⟨p.ctx, p.hasLazy, p.vt, p.coeffs, p.shoup⟩ := rfl
    _ = enc p.ctx r p.vt f := by rw [h1, h2, hf]; rfl

theorem represents_enc (h : c.WF b n) (f : c.Elem) : Represents c (enc c r vt f) f := by
  refine ⟨rfl, valid_enc h f, ?_⟩
  rw [toPowerBasis_enc h]
  exact toBigUint_rows h f rfl rfl

theorem represents_iff (h : c.WF b n) {p : Poly r} {f : c.Elem} : Represents c p f ↔ p = enc c r p.vt f := by
  have := h.neZero
  constructor
  · intro hr
    obtain ⟨g, hg⟩ := exists_enc h hr.ctx hr.valid
    have h1 := hr.coeffs
    rw [hg, (represents_enc h g).coeffs] at h1
    have : f = g := by
      refine Nega.ext fun i => ?_
      have := congrFun (List.ofFn_injective (Option.some.inj h1)) i
      exact (ZMod.val_injective _ this).symm
    rw [this]; exact hg
  · intro e; rw [e]; exact represents_enc h f

end Poly
end Fhe
