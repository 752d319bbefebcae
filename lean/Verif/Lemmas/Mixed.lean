import Verif.Lemmas.TimedRq
import Verif.Lemmas.RqRep
import Verif.Lemmas.IntPoly
import Verif.Spec.Mixed
import Verif.Model.ReleaseMore
import Verif.Lemmas.RqSubst
/-!
# Release builds on polynomials of different contexts
-/
namespace Fhe
open NttOperator Nega Poly

variable {b : Build} {n : Nat} {c c' : Context} {r : Rep} {vt vt' : Bool}

/-- The moduli of `c'` are the first ones of `c`. -/
structure Context.Above (b : Build) (n : Nat) (c c' : Context) : Prop where
  wf : c.WF b n
  wf' : c'.WF b n
  moduli : ∃ post, c.moduli = c'.moduli ++ post

theorem zipRows_prefix {α β : Type} {F : List Nat → β → Panics (List Nat)} {l : List α} {g k : α → List Nat} {h : α → β} {rest : List (List Nat)}
    (H : ∀ x ∈ l, F (g x) (h x) = some (k x)) : zipRows F (l.map g ++ rest) (l.map h) = some (l.map k ++ rest) := by
  induction l with
  | nil => cases rest <;> rfl
  | cons a l ih =>
    simp only [List.map_cons, List.cons_append, zipRows]
    rw [H a (by simp), ih fun x hx => H x (by simp [hx])]
    rfl

theorem zip_map_append {α β γ : Type} (l l' : List α) (f : α → β) (g : α → γ) : (l.map f).zip ((l ++ l').map g) = l.map fun x => (f x, g x) := by
  induction l with
  | nil => simp
  | cons a l ih => rw [List.cons_append, List.map_cons, List.map_cons, List.map_cons, List.zip_cons_cons, ih]

theorem zip_append_map {α β γ : Type} (l l' : List α) (f : α → β) (g : α → γ) : ((l ++ l').map f).zip (l.map g) = l.map fun x => (f x, g x) := by
  induction l with
  | nil => simp
  | cons a l ih => rw [List.cons_append, List.map_cons, List.map_cons, List.map_cons, List.zip_cons_cons, ih]

namespace Context.Above

theorem ops_append (h : Above b n c c') : ∃ D, c.ops = c'.ops ++ D := by
  obtain ⟨post, hm⟩ := h.moduli
  have h1 := h.wf.level.moduli
  have h2 := h.wf'.level.moduli
  rw [hm, h2] at h1
  have hlen : c'.ops.length ≤ c.ops.length := by
    have := congrArg List.length h1
    simp only [List.length_append, List.length_map] at this
    omega
  refine ⟨c.ops.drop c'.ops.length, ?_⟩
  conv_lhs => rw [← List.take_append_drop c'.ops.length c.ops]
  congr 1
  apply List.ext_getElem
  · simp [hlen]
  intro i hi hi'
  have hc : i < c.ops.length := by omega
  rw [List.getElem_take]
  have e : (c.ops[i]).p.p = (c'.ops[i]).p.p := by
    have := congrArg (fun l => l[i]?) h1
    simp only [List.getElem?_map, List.getElem?_eq_getElem hc, Option.map_some] at this
    rw [List.getElem?_append_left (by simpa using hi'), List.getElem?_map, List.getElem?_eq_getElem hi'] at this
    exact (Option.some.inj this).symm
  have n1 := h.wf.level.newOp _ (List.getElem_mem hc)
  have n2 := h.wf'.level.newOp _ (List.getElem_mem hi')
  rw [e, n2] at n1
  have := congrArg (fun x => x.map fun y => y.toOption.map Prod.snd) n1
  simpa [Except.toOption] using this.symm

theorem degree (h : Above b n c c') : c'.degree = c.degree := h.wf'.level.degree.trans h.wf.level.degree.symm

theorem dvd (h : Above b n c c') : c'.modulus ∣ c.modulus := by
  obtain ⟨post, hm⟩ := h.moduli
  have e : ∀ {c : Context}, c.WF b n → c.modulus = c.moduli.prod := fun hw => by
    have := hw.level.rns.product
    rw [hw.level.rns_moduli] at this
    exact this
  rw [e h.wf, e h.wf', hm, List.prod_append]
  exact Dvd.intro _ rfl

end Context.Above

theorem encRow_mixed {N N' Q Q' : Nat} {f : Nega N (ZMod Q)} {g : Nega N' (ZMod Q')} {op : NttOperator} (hN : N = N')
    (h : ∀ j < N, (coeff f j).val % op.p.p = (coeff g j).val % op.p.p) : encRow r f op = encRow r g op := by
  subst hN
  have e : pbRow f op.p.p = pbRow g op.p.p := tab_congr h
  cases r
  · exact e
  · unfold encRow nttRow; simp only [e]
  · unfold encRow nttRow; simp only [e]

theorem coeff_of_encRow (h : c.WF b n) {op : NttOperator} (hop : op ∈ c.ops) {f g : c.Elem} (e : encRow r f op = encRow r g op) {j : Nat} (hj : j < c.degree) :
    (coeff f j).val % op.p.p = (coeff g j).val % op.p.p := by
  have := h.neZero
  obtain ⟨ω, ωi, hw⟩ := h.level.ops op hop
  have e' : pbRow f op.p.p = pbRow g op.p.p := by
    cases r
    · exact e
    · have h1 := backward_nttRow hw h.level.degree (h.dvd hop) f false
      have h2 := backward_nttRow hw h.level.degree (h.dvd hop) g false
      rw [show nttRow f op = nttRow g op from e, h2] at h1
      exact (Option.some.inj h1).symm
    · have h1 := backward_nttRow hw h.level.degree (h.dvd hop) f false
      have h2 := backward_nttRow hw h.level.degree (h.dvd hop) g false
      rw [show nttRow f op = nttRow g op from e, h2] at h1
      exact (Option.some.inj h1).symm
  have := congrArg (fun l => l[j]?) e'
  simpa [pbRow, tab_get? _ hj] using this

/-- The three operations on rows. -/
theorem row_add (h : c.WF b n) {op : NttOperator} (hop : op ∈ c.ops) (f g : c.Elem) (vt : Bool) :
    (if vt then op.p.addVecVt (encRow r f op) (encRow r g op) else op.p.addVec (encRow r f op) (encRow r g op)) = some (encRow r (f + g) op) := by
  have := h.neZero
  obtain ⟨ω, ωi, hw⟩ := h.level.ops op hop
  have : NeZero op.p.p := ⟨hw.prime.ne_zero⟩
  obtain ⟨Λ, k1, -, -⟩ := encRow_lin hw h.level.degree (h.dvd hop) r
  have e : ∀ f : c.Elem, ∀ x ∈ encRow r f op, x < op.p.p := fun f => (encRow_reduced hw h.level.degree (h.dvd hop) r f).2
  have l : ∀ f : c.Elem, (encRow r f op).length = c.degree := fun f => (encRow_reduced hw h.level.degree (h.dvd hop) r f).1
  simp only [Modulus.addVec_eq hw.modulus ((l f).trans (l g).symm) (e f) (e g),
    Modulus.addVecVt_eq hw.modulus ((l f).trans (l g).symm) (e f) (e g), ite_self]
  rw [k1, k1, k1, tab_zipWith]
  congr 1
  exact tab_congr fun x _ => by rw [map_add, zmod_add_mod]

theorem row_sub (h : c.WF b n) {op : NttOperator} (hop : op ∈ c.ops) (f g : c.Elem) (vt : Bool) :
    (if vt then op.p.subVecVt (encRow r f op) (encRow r g op) else op.p.subVec (encRow r f op) (encRow r g op)) = some (encRow r (f - g) op) := by
  have := h.neZero
  obtain ⟨ω, ωi, hw⟩ := h.level.ops op hop
  have : NeZero op.p.p := ⟨hw.prime.ne_zero⟩
  obtain ⟨Λ, k1, -, -⟩ := encRow_lin hw h.level.degree (h.dvd hop) r
  have e : ∀ f : c.Elem, ∀ x ∈ encRow r f op, x < op.p.p := fun f => (encRow_reduced hw h.level.degree (h.dvd hop) r f).2
  have l : ∀ f : c.Elem, (encRow r f op).length = c.degree := fun f => (encRow_reduced hw h.level.degree (h.dvd hop) r f).1
  simp only [Modulus.subVec_eq hw.modulus ((l f).trans (l g).symm) (e f) (e g),
    Modulus.subVecVt_eq hw.modulus ((l f).trans (l g).symm) (e f) (e g), ite_self]
  rw [k1, k1, k1, tab_zipWith]
  congr 1
  exact tab_congr fun x _ => by rw [map_sub, zmod_sub_mod]

theorem row_mul (h : c.WF b n) {op : NttOperator} (hop : op ∈ c.ops) (f g : c.Elem) (vt : Bool) :
    (if vt then op.p.mulVecVt (encRow .ntt f op) (encRow .ntt g op) else op.p.mulVec (encRow .ntt f op) (encRow .ntt g op)) = some (encRow .ntt (f * g) op) := by
  have := h.neZero
  obtain ⟨ω, ωi, hw⟩ := h.level.ops op hop
  have : NeZero op.p.p := ⟨hw.prime.ne_zero⟩
  obtain ⟨Λ, k1, -, k3⟩ := encRow_lin hw h.level.degree (h.dvd hop) .ntt
  have e : ∀ f : c.Elem, ∀ x ∈ encRow .ntt f op, x < op.p.p := fun f => (encRow_reduced hw h.level.degree (h.dvd hop) .ntt f).2
  have l : ∀ f : c.Elem, (encRow .ntt f op).length = c.degree := fun f => (encRow_reduced hw h.level.degree (h.dvd hop) .ntt f).1
  simp only [Modulus.mulVec_eq hw.modulus ((l f).trans (l g).symm) (e f) (e g),
    Modulus.mulVecVt_eq hw.modulus ((l f).trans (l g).symm) (e f) (e g), ite_self]
  rw [k1, k1, k1, tab_zipWith]
  congr 1
  exact tab_congr fun x _ => by rw [k3 (by decide), zmod_mul_mod]

/-- An operation on rows, and what it does to the elements that they represent. -/
def RowOp (r : Rep) (F : Bool → Modulus → List Nat → List Nat → Panics (List Nat)) (R : ∀ c : Context, c.Elem → c.Elem → c.Elem) : Prop :=
  ∀ (b : Build) (n : Nat) (c : Context), c.WF b n → ∀ op ∈ c.ops, ∀ (f g : c.Elem) (vt : Bool), F vt op.p (encRow r f op) (encRow r g op) = some (encRow r (R c f g) op)

variable {F : Bool → Modulus → List Nat → List Nat → Panics (List Nat)} {R : ∀ c : Context, c.Elem → c.Elem → c.Elem}

theorem Reduces.row (h : c.Above b n c') {g : c.Elem} {g' : c'.Elem} (hg : Reduces g g') {op : NttOperator} (hop : op ∈ c'.ops) :
    encRow r g op = encRow r g' op :=
  encRow_mixed h.degree.symm fun j _ => by rw [hg, Nat.mod_mod_of_dvd _ (h.wf'.dvd hop)]

/-- The left operand has fewer moduli: the right one is reduced on the fly. -/
theorem rows_down (hF : RowOp r F R) (h : c.Above b n c') (f' g' : c'.Elem) {g : c.Elem} (hg : Reduces g g') (vt : Bool) :
    zipRows (fun v1 (x : List Nat × Modulus) => F vt x.2 v1 x.1) (c'.ops.map fun op => encRow r f' op) ((c.ops.map fun op => encRow r g op).zip c'.q) =
      some (c'.ops.map fun op => encRow r (R c' f' g') op) := by
  obtain ⟨D, hD⟩ := h.ops_append
  rw [hD, h.wf'.level.q, zip_append_map]
  exact zipRows_map fun op hop => by rw [hg.row h hop]; exact hF _ _ _ h.wf' op hop f' g' vt

/-- The left operand has more moduli: its rows for these are left alone. -/
theorem rows_up (hF : RowOp r F R) (h : c.Above b n c') (f g : c.Elem) {g' : c'.Elem} (hg : Reduces g g') (vt : Bool) :
    ∃ k : c.Elem, zipRows (fun v1 (x : List Nat × Modulus) => F vt x.2 v1 x.1) (c.ops.map fun op => encRow r f op) ((c'.ops.map fun op => encRow r g' op).zip c.q) =
        some (c.ops.map fun op => encRow r k op) ∧
      SameModulo c'.moduli k (R c f g) ∧ SameModulo (c.moduli.drop c'.moduli.length) k f := by
  have := h.wf.neZero
  obtain ⟨D, hD⟩ := h.ops_append
  have hsub : ∀ op ∈ c'.ops, op ∈ c.ops := fun op hop => by rw [hD]; exact List.mem_append_left _ hop
  have hsubD : ∀ op ∈ D, op ∈ c.ops := fun op hop => by rw [hD]; exact List.mem_append_right _ hop
  have hz : zipRows (fun v1 (x : List Nat × Modulus) => F vt x.2 v1 x.1) (c.ops.map fun op => encRow r f op) ((c'.ops.map fun op => encRow r g' op).zip c.q) =
      some ((c'.ops.map fun op => encRow r (R c f g) op) ++ D.map fun op => encRow r f op) := by
    rw [h.wf.level.q, hD, zip_map_append, List.map_append]
    exact zipRows_prefix fun op hop => by rw [← hg.row h hop]; exact hF _ _ _ h.wf op (hsub op hop) f g vt
  obtain ⟨k, hk⟩ := exists_rows h.wf r (rows := (c'.ops.map fun op => encRow r (R c f g) op) ++ D.map fun op => encRow r f op) (by
    have hgood : ∀ (L : List NttOperator) (e : c.Elem), (∀ op ∈ L, op ∈ c.ops) →
        List.Forall₂ (fun row op => row.length = c.degree ∧ ∀ x ∈ row, x < op.p.p) (L.map fun op => encRow r e op) L := fun L e hL => by
      induction L with
      | nil => exact .nil
      | cons op L ih =>
        obtain ⟨ω, ωi, hw⟩ := h.wf.level.ops op (hL op (by simp))
        exact .cons (encRow_reduced hw h.wf.level.degree (h.wf.dvd (hL op (by simp))) r e) (ih fun o ho => hL o (by simp [ho]))
    have := List.rel_append (hgood c'.ops (R c f g) hsub) (hgood D f hsubD)
    simp only [← hD] at this
    exact this)
  have hk' := hk
  rw [hD, List.map_append] at hk
  obtain ⟨k1, k2⟩ := List.append_inj hk (by simp)
  refine ⟨k, hz.trans (by rw [hk']), fun j hj q hq => ?_, fun j hj q hq => ?_⟩
  · rw [h.wf'.level.moduli] at hq
    obtain ⟨op, hop, rfl⟩ := List.mem_map.1 hq
    exact (coeff_of_encRow h.wf (hsub op hop) (List.map_inj_left.1 k1 op hop) hj).symm
  · have hd : c.moduli.drop c'.moduli.length = D.map (·.p.p) := by
      rw [h.wf.level.moduli, h.wf'.level.moduli, hD, List.map_append, List.drop_left' (by simp)]
    rw [hd] at hq
    obtain ⟨op, hop, rfl⟩ := List.mem_map.1 hq
    exact (coeff_of_encRow h.wf (hsubD op hop) (List.map_inj_left.1 k2 op hop) hj).symm

namespace Release

theorem addAssign_rows {a p : Poly r} (ha : a.hasLazy = false) (hp : p.hasLazy = false) {rows : List (List Nat)}
    (h : zipRows (fun v1 (x : List Nat × Modulus) => if (a.vt && p.vt) = true then x.2.addVecVt v1 x.1 else x.2.addVec v1 x.1) a.coeffs (p.coeffs.zip a.ctx.q) = some rows) :
    (addAssign a p).result = some { a with vt := a.vt && p.vt, coeffs := rows } := by
  have key : Agrees (do check (a.hasLazy = false ∧ p.hasLazy = false); let rows ← zipRows (fun v1 (x : List Nat × Modulus) => if (a.vt && p.vt) = true then x.2.addVecVt v1 x.1 else x.2.addVec v1 x.1) a.coeffs (p.coeffs.zip a.ctx.q); return { a with vt := a.vt && p.vt, coeffs := rows }) (addAssign a p) :=
    Agrees.assert.bind fun _ _ => (rowLoop_agrees _ addVecVt_agrees addVec_agrees _ _ _).bind fun _ _ => Agrees.pure _
  exact key _ (by rw [check_eq ⟨ha, hp⟩, h]; rfl)

theorem subAssign_rows {a p : Poly r} (ha : a.hasLazy = false) (hp : p.hasLazy = false) {rows : List (List Nat)}
    (h : zipRows (fun v1 (x : List Nat × Modulus) => if (a.vt && p.vt) = true then x.2.subVecVt v1 x.1 else x.2.subVec v1 x.1) a.coeffs (p.coeffs.zip a.ctx.q) = some rows) :
    (subAssign a p).result = some { a with vt := a.vt && p.vt, coeffs := rows } := by
  have key : Agrees (do check (a.hasLazy = false ∧ p.hasLazy = false); let rows ← zipRows (fun v1 (x : List Nat × Modulus) => if (a.vt && p.vt) = true then x.2.subVecVt v1 x.1 else x.2.subVec v1 x.1) a.coeffs (p.coeffs.zip a.ctx.q); return { a with vt := a.vt && p.vt, coeffs := rows }) (subAssign a p) :=
    Agrees.assert.bind fun _ _ => (rowLoop_agrees _ subVecVt_agrees subVec_agrees _ _ _).bind fun _ _ => Agrees.pure _
  exact key _ (by rw [check_eq ⟨ha, hp⟩, h]; rfl)

theorem mulAssign_rows {a p : Poly .ntt} (ha : a.hasLazy = false) (hp : p.hasLazy = false) {rows : List (List Nat)}
    (h : zipRows (fun v1 (x : List Nat × Modulus) => if (a.vt && p.vt) = true then x.2.mulVecVt v1 x.1 else x.2.mulVec v1 x.1) a.coeffs (p.coeffs.zip a.ctx.q) = some rows) :
    (mulAssign a p).result = some { a with vt := a.vt && p.vt, coeffs := rows } := by
  have key : Agrees (do check (p.hasLazy = false); check (a.hasLazy = false); let rows ← zipRows (fun v1 (x : List Nat × Modulus) => if (a.vt && p.vt) = true then x.2.mulVecVt v1 x.1 else x.2.mulVec v1 x.1) a.coeffs (p.coeffs.zip a.ctx.q); return { a with vt := a.vt && p.vt, coeffs := rows }) (mulAssign a p) :=
    Agrees.assert.bind fun _ _ => Agrees.assert.bind fun _ _ => (rowLoop_agrees _ mulVecVt_agrees mulVec_agrees _ _ _).bind fun _ _ => Agrees.pure _
  exact key _ (by rw [check_eq hp, check_eq ha, h]; rfl)

end Release

theorem rowOp_add : RowOp r (fun vt m x y => if vt = true then m.addVecVt x y else m.addVec x y) (fun _ f g => f + g) :=
  fun _ _ _ h _ hop f g vt => row_add h hop f g vt
theorem rowOp_sub : RowOp r (fun vt m x y => if vt = true then m.subVecVt x y else m.subVec x y) (fun _ f g => f - g) :=
  fun _ _ _ h _ hop f g vt => row_sub h hop f g vt
theorem rowOp_mul : RowOp .ntt (fun vt m x y => if vt = true then m.mulVecVt x y else m.mulVec x y) (fun _ f g => f * g) :=
  fun _ _ _ h _ hop f g vt => row_mul h hop f g vt

/-- The left operand has fewer moduli. -/
theorem addAssign_down (h : c.Above b n c') (hr : r ≠ .nttShoup) (f' g' : c'.Elem) {g : c.Elem} (hg : Reduces g g') :
    (Release.addAssign (enc c' r vt f') (enc c r vt' g)).result = some (enc c' r (vt && vt') (f' + g')) := by
  rw [Release.addAssign_rows rfl rfl (rows_down rowOp_add h f' g' hg (vt && vt'))]
  simp [enc, if_neg hr]
theorem subAssign_down (h : c.Above b n c') (hr : r ≠ .nttShoup) (f' g' : c'.Elem) {g : c.Elem} (hg : Reduces g g') :
    (Release.subAssign (enc c' r vt f') (enc c r vt' g)).result = some (enc c' r (vt && vt') (f' - g')) := by
  rw [Release.subAssign_rows rfl rfl (rows_down rowOp_sub h f' g' hg (vt && vt'))]
  simp [enc, if_neg hr]
theorem mulAssign_down (h : c.Above b n c') (f' g' : c'.Elem) {g : c.Elem} (hg : Reduces g g') :
    (Release.mulAssign (enc c' .ntt vt f') (enc c .ntt vt' g)).result = some (enc c' .ntt (vt && vt') (f' * g')) := by
  rw [Release.mulAssign_rows rfl rfl (rows_down rowOp_mul h f' g' hg (vt && vt'))]
  simp [enc]


theorem addAssign_up (h : c.Above b n c') (hr : r ≠ .nttShoup) (f g : c.Elem) {g' : c'.Elem} (hg : Reduces g g') :
    ∃ k : c.Elem, (Release.addAssign (enc c r vt f) (enc c' r vt' g')).result = some (enc c r (vt && vt') k) ∧
      SameModulo c'.moduli k (f + g) ∧ SameModulo (c.moduli.drop c'.moduli.length) k f := by
  obtain ⟨k, h1, h2, h3⟩ := rows_up (r := r) rowOp_add h f g hg (vt && vt')
  refine ⟨k, ?_, h2, h3⟩
  rw [Release.addAssign_rows rfl rfl h1]
  simp [enc, if_neg hr]
theorem subAssign_up (h : c.Above b n c') (hr : r ≠ .nttShoup) (f g : c.Elem) {g' : c'.Elem} (hg : Reduces g g') :
    ∃ k : c.Elem, (Release.subAssign (enc c r vt f) (enc c' r vt' g')).result = some (enc c r (vt && vt') k) ∧
      SameModulo c'.moduli k (f - g) ∧ SameModulo (c.moduli.drop c'.moduli.length) k f := by
  obtain ⟨k, h1, h2, h3⟩ := rows_up (r := r) rowOp_sub h f g hg (vt && vt')
  refine ⟨k, ?_, h2, h3⟩
  rw [Release.subAssign_rows rfl rfl h1]
  simp [enc, if_neg hr]
theorem mulAssign_up (h : c.Above b n c') (f g : c.Elem) {g' : c'.Elem} (hg : Reduces g g') :
    ∃ k : c.Elem, (Release.mulAssign (enc c .ntt vt f) (enc c' .ntt vt' g')).result = some (enc c .ntt (vt && vt') k) ∧
      SameModulo c'.moduli k (f * g) ∧ SameModulo (c.moduli.drop c'.moduli.length) k f := by
  obtain ⟨k, h1, h2, h3⟩ := rows_up rowOp_mul h f g hg (vt && vt')
  refine ⟨k, ?_, h2, h3⟩
  rw [Release.mulAssign_rows rfl rfl h1]
  simp [enc]

theorem reduces_ofInt {N : Nat} (h : c.Above b n c') (F : IntPoly N) : Reduces (Fhe.ofInt c F) (Fhe.ofInt c' F) := by
  have h1 := h.wf.neZero
  have h2 := h.wf'.neZero
  intro j
  have e : ∀ c : Context, coeff (Fhe.ofInt c F) j = if j < c.degree then ((coeff F j : Int) : ZMod c.modulus) else 0 := fun c => by
    unfold coeff Fhe.ofInt Nega.ofFn
    split <;> rfl
  rw [e, e, h.degree]
  split
  · have hz : ((coeff F j : Int) : ZMod c'.modulus) = ((((coeff F j : Int) : ZMod c.modulus).val : Nat) : ZMod c'.modulus) := by
      rw [zmod_cast_val h.dvd, map_intCast]
    rw [hz, ZMod.val_natCast]
  · simp

/-! ## Multiplication by `X^(-k)` -/

namespace Release

theorem shiftSign_agrees (degree index : Nat) (qi : Modulus) (x : Nat) : Agrees (Poly.shiftSign degree index qi x) (shiftSign degree index qi x) := by
  unfold Poly.shiftSign shiftSign
  exact Agrees.ite (fun _ => Agrees.pure _) fun _ => neg_agrees _ _

theorem shiftLoop_agrees (degree shift : Nat) (qi : Modulus) (row : List Nat) : (left k : Nat) → (out : List Nat) →
    Agrees (Poly.shiftLoop degree shift qi row left k out) (shiftLoop degree shift qi row left k out)
  | 0, _, _ => Agrees.branch (Agrees.pure _)
  | left + 1, k, out => by
    rw [Poly.shiftLoop, shiftLoop]
    refine Agrees.branch (Agrees.add64 (Agrees.fetch.bind fun x _ => (shiftSign_agrees _ _ _ _).bind fun v _ => Agrees.check fun hi => ?_))
    intro y hy
    rw [bind_some (a := out[wadd64 shift k &&& degree - 1]) (List.getElem?_eq_getElem hi)]
    exact shiftLoop_agrees degree shift qi row left (k + 1) _ y hy

/-- Twice the degree divides `2^64`: the wrap-around does no harm. -/
theorem multiplyInversePowerOfX_enc (h : c.WF b n) {k : Nat} (hk : k < 2 ^ 64) (f : c.Elem) :
    (multiplyInversePowerOfX (enc c .powerBasis vt f) k).result = some (enc c .powerBasis vt (mono (2 * c.degree - k % (2 * c.degree)) * f)) := by
  have hN61 : c.degree < 2 ^ 61 := by rw [h.level.degree]; exact Nat.pow_lt_pow_right (by norm_num) h.level.n_lt
  have hpos : 0 < c.degree := by rw [h.level.degree]; positivity
  have hd2 : c.degree <<< 1 = 2 * c.degree := by rw [Nat.shiftLeft_eq]; ring
  have hlt := Nat.mod_lt k (show 0 < 2 * c.degree by omega)
  have hdvd : 2 * c.degree ∣ 2 ^ 64 := by
    rw [h.level.degree, mul_comm, ← pow_succ]
    exact pow_dvd_pow _ (by have := h.level.n_lt; omega)
  have hs : wsub 64 (2 * c.degree) k % (2 * c.degree) = (2 * c.degree - k % (2 * c.degree)) % (2 * c.degree) := by
    obtain ⟨m, hm⟩ := hdvd
    have hkd := Nat.div_add_mod k (2 * c.degree)
    have hq : k / (2 * c.degree) < m := Nat.div_lt_of_lt_mul (by omega)
    unfold wsub
    split
    · next hle =>
      rcases Nat.lt_or_ge k (2 * c.degree) with hl | hl
      · rw [Nat.mod_eq_of_lt hl]
      · obtain rfl : k = 2 * c.degree := by omega
        simp
    · have e : 2 * c.degree + 2 ^ 64 - k = (2 * c.degree - k % (2 * c.degree)) + 2 * c.degree * (m - k / (2 * c.degree)) := by
        rw [Nat.mul_sub]
        have : 2 * c.degree * (k / (2 * c.degree)) ≤ 2 * c.degree * m := Nat.mul_le_mul_left _ hq.le
        omega
      rw [e, Nat.add_mul_mod_self_left]
  have key := (Poly.multiplyInversePowerOfX_enc (vt := vt) h (k := k % (2 * c.degree)) hlt.le f)
  have ag : Agrees ((enc c .powerBasis vt f).multiplyInversePowerOfX (k % (2 * c.degree))) (multiplyInversePowerOfX (enc c .powerBasis vt f) k) := by
    unfold Poly.multiplyInversePowerOfX multiplyInversePowerOfX
    simp only [show (enc c .powerBasis vt f).ctx = c from rfl, hd2]
    rw [Nat.mod_eq_of_lt (show 2 * c.degree < 2 ^ 64 by omega), subU_eq hlt.le, hs]
    refine Agrees.check fun _ => ?_
    intro y hy
    rw [Release.bind_some (a := ()) (by simp [assert]; omega)]
    exact ((Agrees.zipRows (fun out (x : List Nat × Modulus) => shiftLoop_agrees c.degree _ x.2 x.1 c.degree 0 out) _ _).bind fun _ _ => Agrees.pure _) y hy
  exact ag _ key

end Release

end Fhe
