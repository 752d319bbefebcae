import Verif.Lemmas.MemoryShape
import Verif.Lemmas.BfvSer
import Verif.Lemmas.BfvDot
/-! `dot_product_scalar` accesses no memory outside of its operands. -/
namespace Fhe.Memory
open Release
open Spec (RightShape)

variable {α β : Type}

/-- The run does not end in undefined behaviour. -/
def Never (x : OutRes α) : Prop := x.run ≠ .undefined

theorem Never.bind {x : OutRes α} {f : α → OutRes β} (h : Never x) (hf : ∀ a, x.run = .returned (.ok a) → Never (f a)) : Never (x >>= f) := by
  unfold Never at *
  rw [ExceptT.run_bind]
  cases hx : x.run with
  | returned a =>
    rw [ret_bind]
    cases a with
    | ok a => exact hf a hx
    | error e => exact nofun
  | panicked => exact nofun
  | undefined => exact absurd hx h

theorem never_pure (a : α) : Never (pure a : OutRes α) := nofun
theorem never_throw (e : FheError) : Never (throw e : OutRes α) := nofun

theorem never_ofRes (x : Res α) : Never (ofRes x) := by
  unfold Never ofRes
  rw [ExceptT.run_mk]
  split <;> exact nofun

theorem ofRes_ok {x : Res α} {a : α} (h : (ofRes x).run = .returned (.ok a)) : x = Res.ok a := by
  unfold ofRes at h
  rw [ExceptT.run_mk] at h
  split at h
  · cases h
  · rename_i r hr
    cases h
    exact hr

theorem safe_ne_undefined (t : Timed α) : safe t ≠ .undefined := by
  unfold safe
  split <;> exact nofun

theorem never_ofOutcome {x : Outcome α} (h : x ≠ .undefined) : Never (ofOutcome x) := by
  unfold Never ofOutcome
  cases x with
  | returned a => exact nofun
  | panicked => exact nofun
  | undefined => exact absurd rfl h

theorem ofOutcome_ok {x : Outcome α} {a : α} (h : (ofOutcome x).run = .returned (.ok a)) : x = .returned a := by
  unfold ofOutcome at h
  cases x with
  | returned a => cases h; rfl
  | panicked => cases h
  | undefined => cases h

theorem never_ofMath {x : Outcome (Except MathError α)} (h : x ≠ .undefined) : Never (ofMath x) := by
  unfold Never ofMath
  cases x with
  | returned a => cases a <;> exact nofun
  | panicked => exact nofun
  | undefined => exact absurd rfl h

instance : LawfulMonad Outcome := LawfulMonad.mk' _
  (id_map := fun x => by cases x <;> rfl)
  (pure_bind := fun _ _ => rfl)
  (bind_assoc := fun x _ _ => by cases x <;> rfl)

theorem never_mapM {f : α → OutRes β} (h : ∀ a, Never (f a)) (l : List α) : Never (l.mapM f) := by
  induction l with
  | nil => exact never_pure _
  | cons a l ih =>
    rw [List.mapM_cons]
    exact (h a).bind fun _ _ => ih.bind fun _ _ => never_pure _

/-- An update that ends well for each pair and keeps a property. -/
theorem zipUpdate_ok {f : α → β → Outcome α} {P : α → Prop} {Q : β → Prop} (hf : ∀ a b, P a → Q b → ∃ a', f a b = .returned a' ∧ P a') (as : List α) (bs : List β)
    (ha : ∀ a ∈ as, P a) (hb : ∀ b ∈ bs, Q b) : ∃ as', zipUpdate f as bs = .returned as' ∧ ∀ a ∈ as', P a := by
  induction as generalizing bs with
  | nil => exact ⟨[], rfl, ha⟩
  | cons a as ih =>
    cases bs with
    | nil => exact ⟨a :: as, rfl, ha⟩
    | cons b bs =>
      obtain ⟨a', e1, p1⟩ := hf a b (ha a (by simp)) (hb b (by simp))
      obtain ⟨as', e2, p2⟩ := ih bs (fun a h => ha a (by simp [h])) fun b h => hb b (by simp [h])
      unfold zipUpdate
      rw [e1, ret_bind, e2, ret_bind]
      exact ⟨_, rfl, by simpa using ⟨p1, p2⟩⟩

theorem fmaUnchecked_ok {d : Nat} {out x y : List Nat} (ho : out.length = d) (hx : x.length = d) (hy : y.length = d) : ∃ o, fmaUnchecked out x y = .returned o ∧ o.length = d := by
  rw [fmaUnchecked_eq, if_pos (by omega)]
  exact ⟨_, rfl, by rw [List.length_zipWith, List.length_zip]; omega⟩

/-- What a successful validation says. -/
theorem dotValidate_ok {first : Ciphertext} {ctx : Context} {xs : List (Ciphertext × Plaintext)} (h : dotValidate first ctx xs = Res.ok ()) :
    ∀ x ∈ xs, (∀ p ∈ x.1.c, p.ctx = ctx) ∧ x.2.polyNtt.ctx = ctx ∧ x.1.c.length = first.c.length := by
  induction xs with
  | nil => simp
  | cons x xs ih =>
    obtain ⟨ct, pt⟩ := x
    unfold dotValidate at h
    obtain ⟨_, h1, h⟩ := Res.bind_eq_ok.1 h
    obtain ⟨_, h2, h⟩ := Res.bind_eq_ok.1 h
    split at h
    · cases h
    · rename_i h3
      intro x hx
      rcases List.mem_cons.1 hx with rfl | hx
      · refine ⟨?_, ?_, by simpa using h3⟩
        · unfold Ciphertext.validateForContext at h1
          split at h1
          · cases h1
          · unfold Ciphertext.validateContext at h1
            split at h1
            · cases h1
            split at h1
            · cases h1
            split at h1
            · cases h1
            · rename_i h4
              simpa using h4
        · unfold Plaintext.validateForContext at h2
          split at h2
          · cases h2
          · unfold Plaintext.validateContext at h2
            obtain ⟨_, -, h2⟩ := Res.bind_eq_ok.1 h2
            split at h2
            · cases h2
            split at h2
            · cases h2
            · rename_i h4
              simpa using h4
      · exact ih h x hx

theorem dotAccumulateAll_ok {ctx : Context} (xs : List (Ciphertext × Plaintext)) (hx : ∀ x ∈ xs, (∀ p ∈ x.1.c, p.ctx = ctx ∧ ∀ row ∈ p.coeffs, row.length = p.ctx.degree) ∧ x.2.polyNtt.ctx = ctx ∧ ∀ row ∈ x.2.polyNtt.coeffs, row.length = x.2.polyNtt.ctx.degree)
    (acc : List (List (List Nat))) (ha : ∀ a ∈ acc, ∀ r ∈ a, r.length = ctx.degree) : ∃ acc', dotAccumulateAll xs acc = .returned acc' := by
  induction xs generalizing acc with
  | nil => exact ⟨acc, rfl⟩
  | cons x xs ih =>
    obtain ⟨ct, pt⟩ := x
    obtain ⟨hc, hp1, hp2⟩ := hx (ct, pt) (by simp)
    obtain ⟨acc', e1, p1⟩ := zipUpdate_ok (P := fun a : List (List Nat) => ∀ r ∈ a, r.length = ctx.degree) (Q := fun p : Poly .ntt => p.ctx = ctx ∧ ∀ row ∈ p.coeffs, row.length = p.ctx.degree)
      (f := fun acci (ci : Poly .ntt) => zipUpdate (fun accij (x : List Nat × List Nat) => fmaUnchecked accij x.1 x.2) acci (ci.coeffs.zip pt.polyNtt.coeffs))
      (fun a p pa pp => zipUpdate_ok (P := fun r : List Nat => r.length = ctx.degree) (Q := fun x : List Nat × List Nat => x.1.length = ctx.degree ∧ x.2.length = ctx.degree)
        (fun r x pr px => fmaUnchecked_ok pr px.1 px.2) a _ pa fun x hx =>
          ⟨by rw [pp.2 _ (List.of_mem_zip hx).1, pp.1], by rw [hp2 _ (List.of_mem_zip hx).2, hp1]⟩) acc ct.c ha hc
    unfold dotAccumulateAll dotAccumulate
    rw [e1, ret_bind]
    exact ih (fun x hx' => hx x (by simp [hx'])) acc' p1

theorem partsAt_ok {L : Nat} (cts : List Ciphertext) (h : ∀ ct ∈ cts, ct.c.length = L) {i : Nat} (hi : i < L) : partsAt cts i ≠ .undefined := by
  induction cts with
  | nil => exact nofun
  | cons ct cts ih =>
    unfold partsAt
    rw [unchecked_lt (show i < ct.c.length by rw [h ct (by simp)]; exact hi), ret_bind]
    exact bind_ne (ih fun c hc => h c (by simp [hc])) fun _ => nofun

theorem dotParts_never {L : Nat} (cts : List Ciphertext) (pts : List Plaintext) (h : ∀ ct ∈ cts, ct.c.length = L) (left i : Nat) (hi : i + left ≤ L) : Never (dotParts cts pts left i) := by
  induction left generalizing i with
  | zero => exact never_pure _
  | succ left ih =>
    unfold dotParts
    exact (never_ofOutcome (partsAt_ok cts h (by omega))).bind fun _ _ => (never_ofMath (dotProduct_ne _ _)).bind fun _ _ => (ih (i + 1) (by omega)).bind fun _ _ => never_pure _

theorem dotReducePart_never (ctx : Context) (degree : Nat) (vt : Bool) (acci : List (List Nat)) : Never (dotReducePart ctx degree vt acci) :=
  (never_ofOutcome (safe_ne_undefined _)).bind fun _ _ => never_ofRes _

theorem dotProductScalar_never {cts : List Ciphertext} {pts : List Plaintext} (hw : ∀ ct ∈ cts, ∃ b n, ParWF b n ct.par.toBfvParameters)
    (hc : ∀ ct ∈ cts, ∀ p ∈ ct.c, ∀ row ∈ p.coeffs, row.length = p.ctx.degree)
    (hp : ∀ pt ∈ pts, ∀ row ∈ pt.polyNtt.coeffs, row.length = pt.polyNtt.ctx.degree) : Never (dotProductScalar cts pts) := by
  unfold dotProductScalar
  split
  · exact never_throw _
  split
  · exact never_throw _
  rename_i hl
  rw [not_not] at hl
  split
  · exact never_throw _
  rename_i first rest _
  refine (never_ofRes _).bind fun _ _ => (never_ofRes _).bind fun ctx hctx => (never_ofRes _).bind fun _ hv => ?_
  have hv := dotValidate_ok (ofRes_ok hv)
  obtain ⟨b, n, hw⟩ := hw first (by simp)
  obtain ⟨l, hat, rfl⟩ := AtLevel.ofContext hw (ofRes_ok hctx)
  split
  · exact never_ofOutcome nofun
  split
  · refine (dotParts_never (L := first.c.length) _ _ (fun ct hct => ?_) _ _ (by omega)).bind fun _ _ => never_pure _
    obtain ⟨i, hi, rfl⟩ := List.getElem_of_mem hct
    exact (hv ((first :: rest)[i], pts[i]'(by omega)) (List.mem_iff_getElem.2 ⟨i, by rw [List.length_zip]; omega, by simp⟩)).2.2
  · obtain ⟨acc', e⟩ := dotAccumulateAll_ok (ctx := l.ctx) ((first :: rest).zip pts)
      (fun x hx => ⟨fun p hpx => ⟨(hv x hx).1 p hpx, hc x.1 (List.of_mem_zip hx).1 p hpx⟩, (hv x hx).2.1, hp x.2 (List.of_mem_zip hx).2⟩)
      (List.replicate first.c.length (zeroRows l.ctx.moduli.length first.par.degree)) (fun a ha r hr => by
        rw [List.eq_of_mem_replicate ha] at hr
        rw [(zeroRows_shape _ _).2 r hr, hat.deg])
    refine (never_ofOutcome (by rw [e]; exact nofun)).bind fun _ _ => (never_mapM (dotReducePart_never _ _ _) _).bind fun _ _ => never_pure _

end Fhe.Memory
