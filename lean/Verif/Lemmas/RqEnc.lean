import Verif.Lemmas.RqCtx
import Verif.Spec.Rq
import Verif.Ring.Nega
/-! Canonical representations of elements of `(ZMod Q)[X]/(X^N + 1)`. -/
namespace Fhe
open NttOperator Nega

theorem zipRows_map {α β : Type} {F : List Nat → β → Panics (List Nat)} {l : List α} {g k : α → List Nat} {h : α → β}
    (H : ∀ x ∈ l, F (g x) (h x) = some (k x)) : zipRows F (l.map g) (l.map h) = some (l.map k) := by
  induction l with
  | nil => rfl
  | cons a l ih =>
    simp only [List.map_cons, zipRows]
    rw [H a (by simp), ih fun x hx => H x (by simp [hx])]
    rfl

theorem check_true : check True = some () := if_pos trivial

theorem zip_map_same {α β γ : Type} (l : List α) (f : α → β) (g : α → γ) : (l.map f).zip (l.map g) = l.map fun x => (f x, g x) := by
  rw [List.zip_map']

theorem tab_zipWith {α β γ : Type} (F : α → β → γ) (n : Nat) (f : Nat → α) (g : Nat → β) :
    List.zipWith F (tab n f) (tab n g) = tab n fun i => F (f i) (g i) := by
  apply List.ext_getElem <;> simp [tab]

theorem replicate_eq_tab {α : Type} (n : Nat) (a : α) : List.replicate n a = tab n fun _ => a := by
  unfold tab; rw [List.map_const', List.length_range]

/-- The row of the residues modulo `q` of the coefficients. -/
def pbRow {N Q : Nat} (f : Nega N (ZMod Q)) (q : Nat) : List Nat := tab N fun j => (coeff f j).val % q

/-- The transform of that row. -/
def nttRow {N Q : Nat} (f : Nega N (ZMod Q)) (op : NttOperator) : List Nat := (op.forward (pbRow f op.p.p)).getD []

/-- The row for a representation. -/
def encRow {N Q : Nat} (r : Rep) (f : Nega N (ZMod Q)) (op : NttOperator) : List Nat :=
  match r with
  | .powerBasis => pbRow f op.p.p
  | .ntt => nttRow f op
  | .nttShoup => nttRow f op

/-- The precomputed row. -/
def shoupRow (row : List Nat) (p : Nat) : List Nat := row.map fun x => x * 2 ^ 64 / p

/-- The polynomial that represents `f`. -/
def enc (c : Context) (r : Rep) (vt : Bool) (f : c.Elem) : Poly r :=
  { ctx := c, hasLazy := false, vt, coeffs := c.ops.map fun op => encRow r f op
    shoup := if r = .nttShoup then some (c.ops.map fun op => shoupRow (encRow r f op) op.p.p) else none }

section row
variable {op : NttOperator} {n ω ωi Q : Nat}

theorem zmod_cast_val {q Q : Nat} [NeZero Q] (h : q ∣ Q) (x : ZMod Q) : ((x.val : Nat) : ZMod q) = ZMod.castHom h (ZMod q) x := by
  rw [ZMod.castHom_apply, ZMod.cast_eq_val]

theorem pbRow_eq {N q : Nat} [NeZero Q] (hq : q ∣ Q) (f : Nega N (ZMod Q)) :
    pbRow f q = tab N fun j => (ZMod.castHom hq (ZMod q) (coeff f j)).val := by
  refine tab_congr fun j _ => ?_
  rw [← zmod_cast_val hq, ZMod.val_natCast]

theorem length_pbRow {N q : Nat} (f : Nega N (ZMod Q)) : (pbRow f q).length = N := length_tab _ _

theorem pbRow_lt {N q : Nat} (hq : 0 < q) (f : Nega N (ZMod Q)) : ∀ x ∈ pbRow f q, x < q := by
  intro x hx
  obtain ⟨i, -, rfl⟩ := mem_tab.1 hx
  exact Nat.mod_lt _ hq

theorem ω_pow (h : op.WF n ω ωi) (x : Nat) : ((ω : ZMod op.p.p) ^ (2 * x + 1)) ^ 2 ^ n = -1 := by
  rw [← pow_mul, mul_comm, pow_mul, h.root, Odd.neg_one_pow ⟨x, rfl⟩]

theorem forward_pbRow {N : Nat} [NeZero Q] (h : op.WF n ω ωi) (hN : N = 2 ^ n) (hq : op.p.p ∣ Q) (f : Nega N (ZMod Q)) :
    op.forward (pbRow f op.p.p) = some (tab N fun x =>
      (evalFn (ZMod.castHom hq (ZMod op.p.p)) ((ω : ZMod op.p.p) ^ (2 * revBits n x + 1)) f).val) ∧
    op.forwardVt (pbRow f op.p.p) = op.forward (pbRow f op.p.p) := by
  subst hN
  have hp := h.modulus.pos
  have hl : ∀ x ∈ pbRow f op.p.p, x < 4 * op.p.p := fun x hx => by have := pbRow_lt hp f x hx; omega
  rw [forward_eq h (by rw [length_pbRow, h.size]) hl, forwardVt_eq h (by rw [length_pbRow, h.size]) hl, fwdVal]
  refine ⟨?_, rfl⟩
  congr 1
  refine tab_congr fun x _ => ?_
  congr 1
  rw [evalState_end]
  unfold Nega.evalFn
  rw [← Fin.sum_univ_eq_sum_range (fun t => (((pbRow f op.p.p).getD t 0 : Nat) : ZMod op.p.p) * (ω : ZMod op.p.p) ^ ((2 * revBits n x + 1) * t))]
  refine Finset.sum_congr rfl fun i _ => ?_
  rw [pbRow, tab_getD _ i.isLt, ZMod.natCast_mod, zmod_cast_val hq, coeff_val, pow_mul]

theorem nttRow_eq {N : Nat} [NeZero Q] (h : op.WF n ω ωi) (hN : N = 2 ^ n) (hq : op.p.p ∣ Q) (f : Nega N (ZMod Q)) :
    nttRow f op = tab N fun x =>
      (evalFn (ZMod.castHom hq (ZMod op.p.p)) ((ω : ZMod op.p.p) ^ (2 * revBits n x + 1)) f).val := by
  rw [nttRow, (forward_pbRow h hN hq f).1]; rfl

theorem forward_nttRow {N : Nat} [NeZero Q] (h : op.WF n ω ωi) (hN : N = 2 ^ n) (hq : op.p.p ∣ Q) (f : Nega N (ZMod Q)) (vt : Bool) :
    Poly.fwdRow vt (pbRow f op.p.p) op = some (nttRow f op) := by
  have h1 := forward_pbRow h hN hq f
  unfold Poly.fwdRow
  rw [h1.2, nttRow, h1.1]
  cases vt <;> rfl

theorem nttRow_reduced {N : Nat} [NeZero Q] (h : op.WF n ω ωi) (hN : N = 2 ^ n) (hq : op.p.p ∣ Q) (f : Nega N (ZMod Q)) :
    (nttRow f op).length = N ∧ ∀ x ∈ nttRow f op, x < op.p.p := by
  have : NeZero op.p.p := ⟨h.prime.ne_zero⟩
  rw [nttRow_eq h hN hq]
  exact ⟨length_tab _ _, reduced_of_tab_val _⟩

theorem backward_nttRow {N : Nat} [NeZero Q] (h : op.WF n ω ωi) (hN : N = 2 ^ n) (hq : op.p.p ∣ Q) (f : Nega N (ZMod Q)) (vt : Bool) :
    Poly.bwdRow vt (nttRow f op) op = some (pbRow f op.p.p) := by
  obtain ⟨hl, hr⟩ := nttRow_reduced h hN hq f
  have hp := h.modulus.pos
  have hlen : (nttRow f op).length = op.size := by rw [hl, hN, h.size]
  have h2 : ∀ x ∈ nttRow f op, x < 2 * op.p.p := fun x hx => by have := hr x hx; omega
  have hlt := pbRow_lt (q := op.p.p) hp f
  have hpl : (pbRow f op.p.p).length = op.size := by rw [length_pbRow, hN, h.size]
  have e : nttRow f op = fwdVal op.p.p n ω (pbRow f op.p.p) := by
    rw [nttRow, forward_eq h hpl (fun x hx => by have := hlt x hx; omega)]; rfl
  unfold Poly.bwdRow
  rw [backward_eq h hlen h2, backwardVt_eq h hlen h2, e, bwdVal_fwdVal h hpl hlt]
  cases vt <;> rfl

/-- The coefficient of `X^j` as an additive map. -/
def coeffHom {N : Nat} {R : Type} [CommRing R] (j : Nat) : Nega N R →+ R where
  toFun f := coeff f j
  map_zero' := by unfold coeff; split <;> rfl
  map_add' f g := by unfold coeff; split <;> simp

/-- Every entry of a row is an additive function of the element, compatible with scalars, and multiplicative for transforms. -/
theorem encRow_lin {N : Nat} [NeZero Q] (h : op.WF n ω ωi) (hN : N = 2 ^ n) (hq : op.p.p ∣ Q) (r : Rep) :
    ∃ Λ : Nat → Nega N (ZMod Q) →+ ZMod op.p.p, (∀ f, encRow r f op = tab N fun x => (Λ x f).val) ∧
      (∀ x a f, Λ x (C a * f) = ZMod.castHom hq (ZMod op.p.p) a * Λ x f) ∧
      (r ≠ .powerBasis → ∀ x f g, Λ x (f * g) = Λ x f * Λ x g) := by
  have hN0 : 0 < N := by rw [hN]; positivity
  have hω : ∀ x, ((ω : ZMod op.p.p) ^ (2 * revBits n x + 1)) ^ N = -1 := fun x => by rw [hN]; exact ω_pow h _
  have key : (∃ Λ : Nat → Nega N (ZMod Q) →+ ZMod op.p.p, (∀ f, nttRow f op = tab N fun x => (Λ x f).val) ∧
      (∀ x a f, Λ x (C a * f) = ZMod.castHom hq (ZMod op.p.p) a * Λ x f) ∧ (∀ x f g, Λ x (f * g) = Λ x f * Λ x g)) := by
    refine ⟨fun x => (Nega.eval (ZMod.castHom hq (ZMod op.p.p)) _ (hω x) hN0).toAddMonoidHom, fun f => nttRow_eq h hN hq f, fun x a f => ?_,
      fun x f g => map_mul (Nega.eval (ZMod.castHom hq (ZMod op.p.p)) _ (hω x) hN0) f g⟩
    change Nega.eval (ZMod.castHom hq (ZMod op.p.p)) _ (hω x) hN0 (C a * f) = _ * Nega.eval (ZMod.castHom hq (ZMod op.p.p)) _ (hω x) hN0 f
    rw [map_mul]
    congr 1
    change evalFn _ _ _ = _
    unfold evalFn
    rw [Finset.sum_eq_single ⟨0, hN0⟩]
    · rw [C_apply]; simp
    · intro i _ hi
      rw [C_apply, if_neg (fun e => hi (Fin.ext e))]; simp
    · simp
  obtain ⟨Λ, k1, k2, k3⟩ := key
  cases r with
  | powerBasis =>
    refine ⟨fun x => (ZMod.castHom hq (ZMod op.p.p)).toAddMonoidHom.comp (coeffHom x), fun f => pbRow_eq hq f, fun x a f => ?_, fun hh => absurd rfl hh⟩
    change ZMod.castHom hq (ZMod op.p.p) (coeff _ x) = ZMod.castHom hq (ZMod op.p.p) a * ZMod.castHom hq (ZMod op.p.p) (coeff f x)
    rw [← map_mul]
    congr 1
    unfold coeff
    split
    · exact C_mul_apply _ _ _
    · simp
  | ntt => exact ⟨Λ, k1, k2, fun _ => k3⟩
  | nttShoup => exact ⟨Λ, k1, k2, fun _ => k3⟩

theorem encRow_reduced {N : Nat} [NeZero Q] (h : op.WF n ω ωi) (hN : N = 2 ^ n) (hq : op.p.p ∣ Q) (r : Rep) (f : Nega N (ZMod Q)) :
    (encRow r f op).length = N ∧ ∀ x ∈ encRow r f op, x < op.p.p := by
  cases r with
  | powerBasis => exact ⟨length_pbRow f, pbRow_lt h.modulus.pos f⟩
  | ntt => exact nttRow_reduced h hN hq f
  | nttShoup => exact nttRow_reduced h hN hq f

end row

namespace Context.WF
variable {b : Build} {c : Context} {n : Nat}

theorem neZero (h : c.WF b n) : NeZero c.modulus := ⟨(h.level.rns.product_pos).ne'⟩

theorem dvd (h : c.WF b n) {op : NttOperator} (hop : op ∈ c.ops) : op.p.p ∣ c.modulus := by
  unfold Context.modulus RnsContext.modulus
  rw [h.level.rns.product, h.level.rns_moduli, h.level.moduli]
  exact List.dvd_prod (List.mem_map.2 ⟨op, hop, rfl⟩)

end Context.WF

namespace Poly
variable {b : Build} {c : Context} {n : Nat} {r : Rep} {vt vt' : Bool}

theorem zmod_add_mod {p : Nat} (x y : ZMod p) [NeZero p] : (x.val + y.val) % p = (x + y).val := by rw [ZMod.val_add]
theorem zmod_mul_mod {p : Nat} (x y : ZMod p) : x.val * y.val % p = (x * y).val := by rw [ZMod.val_mul]
theorem zmod_sub_mod {p : Nat} [NeZero p] (x y : ZMod p) : (x.val + p - y.val) % p = (x - y).val := by
  have hy := ZMod.val_lt y
  refine val_of_lt (Nat.mod_lt _ (NeZero.pos p)) ?_
  rw [ZMod.natCast_mod, Nat.cast_sub (by omega), Nat.cast_add, ZMod.natCast_self, ZMod.natCast_zmod_val, ZMod.natCast_zmod_val, add_zero]
theorem zmod_neg_mod {p : Nat} [NeZero p] (y : ZMod p) : (p - y.val) % p = (-y).val := by
  have hy := ZMod.val_lt y
  refine val_of_lt (Nat.mod_lt _ (NeZero.pos p)) ?_
  rw [ZMod.natCast_mod, Nat.cast_sub (by omega), ZMod.natCast_self, ZMod.natCast_zmod_val, zero_sub]

theorem addAssign_enc (h : c.WF b n) (hr : r ≠ .nttShoup) (f g : c.Elem) :
    (enc c r vt f).addAssign (enc c r vt' g) = some (enc c r (vt && vt') (f + g)) := by
  have := h.neZero
  unfold addAssign enc
  simp only [if_neg hr, and_self, check_true, Option.bind_eq_bind, Option.bind_some]
  rw [h.level.q, zip_map_same]
  rw [zipRows_map (k := fun op => encRow r (f + g) op)]
  · rfl
  intro op hop
  obtain ⟨ω, ωi, hw⟩ := h.level.ops op hop
  have : NeZero op.p.p := ⟨hw.prime.ne_zero⟩
  obtain ⟨Λ, k1, -, -⟩ := encRow_lin hw h.level.degree (h.dvd hop) r
  have e : ∀ f : c.Elem, ∀ x ∈ encRow r f op, x < op.p.p := fun f => (encRow_reduced hw h.level.degree (h.dvd hop) r f).2
  have l : ∀ f : c.Elem, (encRow r f op).length = c.degree := fun f => (encRow_reduced hw h.level.degree (h.dvd hop) r f).1
  simp only [Modulus.addVec_eq hw.modulus ((l f).trans (l g).symm) (e f) (e g),
    Modulus.addVecVt_eq hw.modulus ((l f).trans (l g).symm) (e f) (e g), ite_self]
  rw [k1, k1, k1, tab_zipWith]
  congr 1
  exact tab_congr fun x _ => by rw [map_add, zmod_add_mod]

theorem subAssign_enc (h : c.WF b n) (hr : r ≠ .nttShoup) (f g : c.Elem) :
    (enc c r vt f).subAssign (enc c r vt' g) = some (enc c r (vt && vt') (f - g)) := by
  have := h.neZero
  unfold subAssign enc
  simp only [if_neg hr, and_self, check_true, Option.bind_eq_bind, Option.bind_some]
  rw [h.level.q, zip_map_same]
  rw [zipRows_map (k := fun op => encRow r (f - g) op)]
  · rfl
  intro op hop
  obtain ⟨ω, ωi, hw⟩ := h.level.ops op hop
  have : NeZero op.p.p := ⟨hw.prime.ne_zero⟩
  obtain ⟨Λ, k1, -, -⟩ := encRow_lin hw h.level.degree (h.dvd hop) r
  have e : ∀ f : c.Elem, ∀ x ∈ encRow r f op, x < op.p.p := fun f => (encRow_reduced hw h.level.degree (h.dvd hop) r f).2
  have l : ∀ f : c.Elem, (encRow r f op).length = c.degree := fun f => (encRow_reduced hw h.level.degree (h.dvd hop) r f).1
  simp only [Modulus.subVec_eq hw.modulus ((l f).trans (l g).symm) (e f) (e g),
    Modulus.subVecVt_eq hw.modulus ((l f).trans (l g).symm) (e f) (e g), ite_self]
  rw [k1, k1, k1, tab_zipWith]
  congr 1
  exact tab_congr fun x _ => by rw [map_sub, zmod_sub_mod]

theorem neg_enc (h : c.WF b n) (hr : r ≠ .nttShoup) (f : c.Elem) : (enc c r vt f).neg = some (enc c r vt (-f)) := by
  have := h.neZero
  unfold neg enc
  simp only [if_neg hr, check_true, Option.bind_eq_bind, Option.bind_some]
  rw [h.level.q]
  rw [zipRows_map (k := fun op => encRow r (-f) op)]
  · rfl
  intro op hop
  obtain ⟨ω, ωi, hw⟩ := h.level.ops op hop
  have : NeZero op.p.p := ⟨hw.prime.ne_zero⟩
  obtain ⟨Λ, k1, -, -⟩ := encRow_lin hw h.level.degree (h.dvd hop) r
  have e : ∀ f : c.Elem, ∀ x ∈ encRow r f op, x < op.p.p := fun f => (encRow_reduced hw h.level.degree (h.dvd hop) r f).2
  simp only [Modulus.negVec_eq hw.modulus (e f), Modulus.negVecVt_eq hw.modulus (e f), ite_self]
  rw [k1, k1, tab_map]
  congr 1
  exact tab_congr fun x _ => by rw [map_neg, zmod_neg_mod]

theorem mulAssign_enc (h : c.WF b n) (f g : c.Elem) :
    (enc c .ntt vt f).mulAssign (enc c .ntt vt' g) = some (enc c .ntt (vt && vt') (f * g)) := by
  have := h.neZero
  unfold mulAssign enc
  simp only [check_true, Option.bind_eq_bind, Option.bind_some]
  rw [h.level.q, zip_map_same]
  rw [zipRows_map (k := fun op => encRow .ntt (f * g) op)]
  · rfl
  intro op hop
  obtain ⟨ω, ωi, hw⟩ := h.level.ops op hop
  have : NeZero op.p.p := ⟨hw.prime.ne_zero⟩
  obtain ⟨Λ, k1, -, k3⟩ := encRow_lin hw h.level.degree (h.dvd hop) .ntt
  have e : ∀ f : c.Elem, ∀ x ∈ encRow .ntt f op, x < op.p.p := fun f => (encRow_reduced hw h.level.degree (h.dvd hop) .ntt f).2
  have l : ∀ f : c.Elem, (encRow .ntt f op).length = c.degree := fun f => (encRow_reduced hw h.level.degree (h.dvd hop) .ntt f).1
  simp only [Modulus.mulVec_eq hw.modulus ((l f).trans (l g).symm) (e f) (e g),
    Modulus.mulVecVt_eq hw.modulus ((l f).trans (l g).symm) (e f) (e g), ite_self]
  rw [k1, k1, k1, tab_zipWith]
  congr 1
  exact tab_congr fun x _ => by rw [k3 (by decide), zmod_mul_mod]

/-- A row of representatives below `2^64` of the transform of `f`. -/
def LazyRow {N Q : Nat} (f : Nega N (ZMod Q)) (op : NttOperator) (row : List Nat) : Prop :=
  (∀ x ∈ row, x < 2 ^ 64) ∧ row.map (· % op.p.p) = nttRow f op

theorem mulAssignShoup_lazy (h : c.WF b n) (f g : c.Elem) {a : Poly .ntt} (ha : a.ctx = c) (has : a.shoup = none)
    {rows : NttOperator → List Nat} (hrows : a.coeffs = c.ops.map rows) (hl : ∀ op ∈ c.ops, LazyRow f op (rows op)) :
    a.mulAssignShoup (enc c .nttShoup vt' g) = some (enc c .ntt (a.vt && vt') (f * g)) := by
  have := h.neZero
  unfold mulAssignShoup enc
  rw [check_eq rfl, check_eq ha, ha, h.level.q]
  simp only [Option.bind_eq_bind, Option.bind_some, if_true]
  rw [zip_map_same, zip_map_same, hrows, zipRows_map (k := fun op => encRow .ntt (f * g) op)]
  · rw [Option.bind_some, has]; rfl
  intro op hop
  obtain ⟨ω, ωi, hw⟩ := h.level.ops op hop
  have : NeZero op.p.p := ⟨hw.prime.ne_zero⟩
  obtain ⟨Λ, k1, -, k3⟩ := encRow_lin hw h.level.degree (h.dvd hop) .ntt
  have e : ∀ f : c.Elem, ∀ x ∈ encRow .nttShoup f op, x < op.p.p := fun f => (encRow_reduced hw h.level.degree (h.dvd hop) .nttShoup f).2
  have l : ∀ f : c.Elem, (encRow .nttShoup f op).length = c.degree := fun f => (encRow_reduced hw h.level.degree (h.dvd hop) .nttShoup f).1
  obtain ⟨h64, hmod⟩ := hl op hop
  have hlen : (rows op).length = (encRow .nttShoup g op).length := by
    have := congrArg List.length hmod
    rw [List.length_map] at this
    rw [this, l g]; exact l f
  have hs := Modulus.shoupVec_eq hw.modulus (e g)
  simp only [shoupRow, Modulus.mulShoupVec_eq hw.modulus hlen h64 (e g) hs, Modulus.mulShoupVecVt_eq hw.modulus hlen h64 (e g) hs, ite_self]
  have hz : List.zipWith (fun x y => x * y % op.p.p) (rows op) (encRow .nttShoup g op) =
      List.zipWith (fun x y => x * y % op.p.p) ((rows op).map (· % op.p.p)) (encRow .nttShoup g op) := by
    rw [List.zipWith_map_left]
    congr 1; funext x y; rw [Nat.mod_mul_mod]
  rw [hz, hmod, show nttRow f op = encRow .ntt f op from rfl, show encRow .nttShoup g op = encRow .ntt g op from rfl, k1, k1, k1, tab_zipWith]
  congr 1
  exact tab_congr fun x _ => by rw [k3 (by decide), zmod_mul_mod]

theorem mulAssignShoup_enc (h : c.WF b n) (f g : c.Elem) :
    (enc c .ntt vt f).mulAssignShoup (enc c .nttShoup vt' g) = some (enc c .ntt (vt && vt') (f * g)) := by
  have := h.neZero
  refine mulAssignShoup_lazy h f g rfl rfl (rows := fun op => encRow .ntt f op) rfl fun op hop => ?_
  obtain ⟨ω, ωi, hw⟩ := h.level.ops op hop
  have e := (encRow_reduced hw h.level.degree (h.dvd hop) .ntt f).2
  have hlt := hw.modulus.lt
  refine ⟨fun x hx => by have := e x hx; omega, ?_⟩
  change _ = encRow .ntt f op
  conv_rhs => rw [← List.map_id (encRow .ntt f op)]
  exact List.map_congr_left fun x hx => Nat.mod_eq_of_lt (e x hx)

theorem mulScalar_enc (h : c.WF b n) (hr : r ≠ .nttShoup) (s : Nat) (f : c.Elem) :
    (enc c r vt f).mulScalar s = some (enc c r vt (C (s : ZMod c.modulus) * f)) := by
  have := h.neZero
  unfold mulScalar enc
  simp only [if_neg hr]
  rw [RnsContext.project_eq h.level.rns, h.level.rns_moduli, h.level.moduli, h.level.q, List.map_map]
  simp only [Option.bind_eq_bind, Option.bind_some]
  rw [zip_map_same, zipRows_map (k := fun op => encRow r (C (s : ZMod c.modulus) * f) op)]
  · rfl
  intro op hop
  obtain ⟨ω, ωi, hw⟩ := h.level.ops op hop
  have : NeZero op.p.p := ⟨hw.prime.ne_zero⟩
  obtain ⟨Λ, k1, k2, -⟩ := encRow_lin hw h.level.degree (h.dvd hop) r
  have e : ∀ x ∈ encRow r f op, x < 2 ^ 64 := fun x hx => by
    have := (encRow_reduced hw h.level.degree (h.dvd hop) r f).2 x hx; have := hw.modulus.lt; omega
  have hs : s % op.p.p < op.p.p := Nat.mod_lt _ hw.modulus.pos
  simp only [Function.comp, Modulus.scalarMulVec_eq hw.modulus e hs, Modulus.scalarMulVecVt_eq hw.modulus e hs, ite_self]
  rw [k1, k1, tab_map]
  congr 1
  refine tab_congr fun x _ => ?_
  rw [k2, map_natCast, ← zmod_mul_mod, ZMod.val_natCast, mul_comm]

/-! ### Changing the representation -/

theorem computeShoup_rows (h : c.WF b n) (f : c.Elem) {s : Rep} (p : Poly s) (hc : p.ctx = c)
    (hp : p.coeffs = c.ops.map fun op => encRow r f op) :
    p.computeShoup = some { p with shoup := some (c.ops.map fun op => shoupRow (encRow r f op) op.p.p) } := by
  have := h.neZero
  unfold computeShoup
  rw [hp, hc, h.level.q, zipRows_map (k := fun op => shoupRow (encRow r f op) op.p.p)]
  · rfl
  intro op hop
  obtain ⟨ω, ωi, hw⟩ := h.level.ops op hop
  exact Modulus.shoupVec_eq hw.modulus (encRow_reduced hw h.level.degree (h.dvd hop) r f).2

theorem zipRows_fwd (h : c.WF b n) (f : c.Elem) (vt : Bool) :
    zipRows (fwdRow vt) (c.ops.map fun op => encRow .powerBasis f op) c.ops = some (c.ops.map fun op => encRow .ntt f op) := by
  have := h.neZero
  conv_lhs => enter [3]; rw [← List.map_id c.ops]
  refine zipRows_map fun op hop => ?_
  obtain ⟨ω, ωi, hw⟩ := h.level.ops op hop
  exact forward_nttRow hw h.level.degree (h.dvd hop) f vt

theorem zipRows_bwd (h : c.WF b n) (f : c.Elem) (vt : Bool) :
    zipRows (bwdRow vt) (c.ops.map fun op => encRow .ntt f op) c.ops = some (c.ops.map fun op => encRow .powerBasis f op) := by
  have := h.neZero
  conv_lhs => enter [3]; rw [← List.map_id c.ops]
  refine zipRows_map fun op hop => ?_
  obtain ⟨ω, ωi, hw⟩ := h.level.ops op hop
  exact backward_nttRow hw h.level.degree (h.dvd hop) f vt

theorem intoNtt_enc (h : c.WF b n) (f : c.Elem) : (enc c .powerBasis vt f).intoNtt = some (enc c .ntt vt f) := by
  unfold intoNtt nttForward enc
  simp only [zipRows_fwd h f vt, Option.bind_eq_bind, Option.bind_some]
  rfl

theorem intoNttShoup_enc (h : c.WF b n) (f : c.Elem) : (enc c .powerBasis vt f).intoNttShoup = some (enc c .nttShoup vt f) := by
  unfold intoNttShoup nttForward enc
  simp only [zipRows_fwd h f vt, Option.bind_eq_bind, Option.bind_some, Option.pure_def]
  rw [computeShoup_rows h f (r := .ntt) _ rfl rfl]
  rfl

theorem nttToPowerBasis_enc (h : c.WF b n) (f : c.Elem) : (enc c .ntt vt f).nttToPowerBasis = some (enc c .powerBasis vt f) := by
  unfold nttToPowerBasis nttBackward enc
  simp only [zipRows_bwd h f vt, Option.bind_eq_bind, Option.bind_some]
  rfl

theorem nttToShoup_enc (h : c.WF b n) (f : c.Elem) : (enc c .ntt vt f).nttToShoup = some (enc c .nttShoup vt f) := by
  unfold nttToShoup
  rw [computeShoup_rows h f (r := .ntt) _ rfl rfl]
  rfl

theorem shoupToNtt_enc (f : c.Elem) : (enc c .nttShoup vt f).shoupToNtt = some (enc c .ntt vt f) := rfl

theorem shoupToPowerBasis_enc (h : c.WF b n) (f : c.Elem) : (enc c .nttShoup vt f).shoupToPowerBasis = some (enc c .powerBasis vt f) := by
  unfold shoupToPowerBasis nttBackward enc
  simp only [show (fun op => encRow .nttShoup f op) = (fun op => encRow .ntt f op) from rfl, zipRows_bwd h f vt, Option.bind_eq_bind, Option.bind_some]
  rfl

theorem toPowerBasis_enc (h : c.WF b n) (r : Rep) (f : c.Elem) : (enc c r vt f).toPowerBasis = some (enc c .powerBasis vt f) := by
  cases r with
  | powerBasis => rfl
  | ntt => exact nttToPowerBasis_enc h f
  | nttShoup => exact shoupToPowerBasis_enc h f

theorem ofPowerBasis_enc (h : c.WF b n) (r : Rep) (f : c.Elem) : ofPowerBasis r (enc c .powerBasis vt f) = some (enc c r vt f) := by
  cases r with
  | powerBasis => rfl
  | ntt => exact intoNtt_enc h f
  | nttShoup => exact intoNttShoup_enc h f

end Poly
end Fhe
