import Verif.Spec.Same
import Verif.Model.Equality
import Verif.Lemmas.Laws
/-!
# Polynomials that differ in their timing flag only
-/
namespace Fhe
open Nega Poly

variable {α β γ δ : Type} {R : α → β → Prop} {S : γ → δ → Prop}

/-! ## Outcomes -/

namespace Res

theorem Same.bind {x : Res α} {y : Res β} {f : α → Res γ} {g : β → Res δ} (h : Same R x y) (hf : ∀ a b, R a b → Same S (f a) (g b)) : Same S (x >>= f) (y >>= g) := by
  cases h with
  | panic => exact .panic
  | err e => exact .err e
  | ok h => exact hf _ _ h

theorem Same.pure {a : α} {b : β} (h : R a b) : Same R (Pure.pure a : Res α) (Pure.pure b) := .ok h

theorem Same.lift {x : Panics α} {y : Panics β} (h : Option.Rel R x y) : Same R (Fhe.lift x) (Fhe.lift y) := by
  cases h with
  | some h => exact .ok h
  | none => exact .panic

theorem Same.imp {R' : α → β → Prop} {x : Res α} {y : Res β} (h : Same R x y) (hi : ∀ a b, R a b → R' a b) : Same R' x y := by
  cases h with
  | panic => exact .panic
  | err e => exact .err e
  | ok h => exact .ok (hi _ _ h)

theorem Same.eq {x y : Res α} (h : Same (fun a b => a = b) x y) : x = y := by
  cases h with
  | panic => rfl
  | err e => rfl
  | ok h => rw [h]

theorem Same.refl {R : α → α → Prop} (h : ∀ a, R a a) (x : Res α) : Same R x x := by
  rcases Res.cases x with ⟨a, rfl⟩ | ⟨e, rfl⟩ | rfl
  · exact .ok (h a)
  · exact .err e
  · exact .panic

theorem Same.of_eq {x y : Res α} (h : x = y) : Same (fun a b => a = b) x y := by
  rw [h]; exact Same.refl (fun _ => rfl) y

theorem Same.mapM {f : α → Res γ} {g : β → Res δ} (hf : ∀ a b, R a b → Same S (f a) (g b)) : ∀ {l : List α} {l' : List β}, List.Forall₂ R l l' → Same (List.Forall₂ S) (l.mapM f) (l'.mapM g)
  | _, _, .nil => .ok .nil
  | _, _, .cons h ht => by
    rw [List.mapM_cons, List.mapM_cons]
    exact (hf _ _ h).bind fun _ _ h1 => (Same.mapM hf ht).bind fun _ _ h2 => .ok (.cons h1 h2)

theorem Same.unwrap {x : Res α} {y : Res β} (h : Same R x y) : Option.Rel R x.unwrap y.unwrap := by
  cases h with
  | panic => exact .none
  | err e => exact .none
  | ok h => exact .some h

end Res

theorem rel_bind {x : Option α} {y : Option β} {f : α → Option γ} {g : β → Option δ} (h : Option.Rel R x y) (hf : ∀ a b, R a b → Option.Rel S (f a) (g b)) : Option.Rel S (x >>= f) (y >>= g) := by
  cases h with
  | some h => exact hf _ _ h
  | none => exact .none

theorem rel_mapM {f : α → Option γ} {g : β → Option δ} (hf : ∀ a b, R a b → Option.Rel S (f a) (g b)) : ∀ {l : List α} {l' : List β}, List.Forall₂ R l l' →
    Option.Rel (List.Forall₂ S) (l.mapM f) (l'.mapM g)
  | _, _, .nil => .some .nil
  | _, _, .cons h ht => by
    rw [List.mapM_cons, List.mapM_cons]
    exact rel_bind (hf _ _ h) fun _ _ h1 => rel_bind (rel_mapM hf ht) fun _ _ h2 => .some (.cons h1 h2)

theorem rel_refl {R : α → α → Prop} (h : ∀ a, R a a) (x : Option α) : Option.Rel R x x := by
  cases x with
  | none => exact .none
  | some a => exact .some (h a)

theorem rel_imp {R' : α → β → Prop} {x : Option α} {y : Option β} (h : Option.Rel R x y) (hi : ∀ a b, R a b → R' a b) : Option.Rel R' x y := by
  cases h with
  | some h => exact .some (hi _ _ h)
  | none => exact .none

theorem rel_eq {x y : Option α} (h : Option.Rel (fun a b => a = b) x y) : x = y := by
  cases h with
  | some h => rw [h]
  | none => rfl

theorem rel_check {x : Option α} {y : Option β} (P : Prop) [Decidable P] (h : P → Option.Rel R x y) : Option.Rel R (check P >>= fun _ => x) (check P >>= fun _ => y) := by
  by_cases hP : P
  · rw [check_eq hP]; exact h hP
  · rw [show check P = none from if_neg hP]; exact .none

/-! ## Polynomials -/

namespace Poly
variable {b : Build} {n : Nat} {c c' : Context} {r : Rep}

/-- Polynomials of the context that differ in their timing flag only. -/
def Alike (c : Context) (p q : Poly r) : Prop := ∃ (f : c.Elem) (v v' : Bool), p = enc c r v f ∧ q = enc c r v' f

theorem Alike.of_beq (h : c.WF b n) {p q : Poly r} (hp : p.Valid) (hc : p.ctx = c) (hb : p.beq q = true) : Alike c p q := by
  obtain ⟨f, hf⟩ := exists_enc h hc hp
  refine ⟨f, p.vt, q.vt, hf, ?_⟩
  have h1 := beq_iff.1 hb
  have h2 : q = { p with vt := q.vt } := by
    have : ({ ({ p with vt := false } : Poly r) with vt := q.vt } : Poly r) = { ({ q with vt := false } : Poly r) with vt := q.vt } := by rw [h1]
    exact this.symm
  rw [h2, hf]; rfl

theorem Alike.refl (h : c.WF b n) {p : Poly r} (hp : p.Valid) (hc : p.ctx = c) : Alike c p p := by
  obtain ⟨f, hf⟩ := exists_enc h hc hp
  exact ⟨f, p.vt, p.vt, hf, hf⟩

theorem Alike.beq {p q : Poly r} (h : Alike c p q) : p.beq q = true := by
  obtain ⟨f, v, v', rfl, rfl⟩ := h
  exact beq_iff.2 rfl

theorem Alike.ctx {p q : Poly r} (h : Alike c p q) : p.ctx = c ∧ q.ctx = c := by
  obtain ⟨f, v, v', rfl, rfl⟩ := h
  exact ⟨rfl, rfl⟩

theorem Alike.coeffs {p q : Poly r} (h : Alike c p q) : p.coeffs = q.coeffs := by
  obtain ⟨f, v, v', rfl, rfl⟩ := h
  rfl

theorem Alike.valid (hw : c.WF b n) {p q : Poly r} (h : Alike c p q) : p.Valid ∧ q.Valid := by
  obtain ⟨f, v, v', rfl, rfl⟩ := h
  exact ⟨valid_enc hw f, valid_enc hw f⟩

theorem Alike.allow {p q : Poly r} (h : Alike c p q) : Alike c p.allowVt q.allowVt := by
  obtain ⟨f, v, v', rfl, rfl⟩ := h
  exact ⟨f, true, true, rfl, rfl⟩

theorem Alike.disallow {p q : Poly r} (h : Alike c p q) : p.disallowVt = q.disallowVt ∧ Alike c p.disallowVt q.disallowVt := by
  obtain ⟨f, v, v', rfl, rfl⟩ := h
  exact ⟨rfl, f, false, false, rfl, rfl⟩

theorem Alike.zero (h : c.WF b n) : Alike c (Poly.zero r c) (Poly.zero r c) := ⟨0, false, false, zero_enc h r, zero_enc h r⟩

theorem Alike.add (h : c.WF b n) (hr : r ≠ .nttShoup) {p q p' q' : Poly r} (hp : Alike c p q) (hp' : Alike c p' q') : Option.Rel (Alike c) (p.addAssign p') (q.addAssign q') := by
  obtain ⟨f, v, v', rfl, rfl⟩ := hp
  obtain ⟨g, w, w', rfl, rfl⟩ := hp'
  rw [addAssign_enc h hr, addAssign_enc h hr]
  exact .some ⟨_, _, _, rfl, rfl⟩

theorem Alike.sub (h : c.WF b n) (hr : r ≠ .nttShoup) {p q p' q' : Poly r} (hp : Alike c p q) (hp' : Alike c p' q') : Option.Rel (Alike c) (p.subAssign p') (q.subAssign q') := by
  obtain ⟨f, v, v', rfl, rfl⟩ := hp
  obtain ⟨g, w, w', rfl, rfl⟩ := hp'
  rw [subAssign_enc h hr, subAssign_enc h hr]
  exact .some ⟨_, _, _, rfl, rfl⟩

theorem Alike.neg (h : c.WF b n) (hr : r ≠ .nttShoup) {p q : Poly r} (hp : Alike c p q) : Option.Rel (Alike c) p.neg q.neg := by
  obtain ⟨f, v, v', rfl, rfl⟩ := hp
  rw [neg_enc h hr, neg_enc h hr]
  exact .some ⟨_, _, _, rfl, rfl⟩

theorem Alike.mul (h : c.WF b n) {p q p' q' : Poly .ntt} (hp : Alike c p q) (hp' : Alike c p' q') : Option.Rel (Alike c) (p.mulAssign p') (q.mulAssign q') := by
  obtain ⟨f, v, v', rfl, rfl⟩ := hp
  obtain ⟨g, w, w', rfl, rfl⟩ := hp'
  rw [mulAssign_enc h, mulAssign_enc h]
  exact .some ⟨_, _, _, rfl, rfl⟩

theorem Alike.mulShoup (h : c.WF b n) {p q : Poly .ntt} {p' q' : Poly .nttShoup} (hp : Alike c p q) (hp' : Alike c p' q') : Option.Rel (Alike c) (p.mulAssignShoup p') (q.mulAssignShoup q') := by
  obtain ⟨f, v, v', rfl, rfl⟩ := hp
  obtain ⟨g, w, w', rfl, rfl⟩ := hp'
  rw [mulAssignShoup_enc h, mulAssignShoup_enc h]
  exact .some ⟨_, _, _, rfl, rfl⟩

theorem Alike.toPowerBasis (h : c.WF b n) {p q : Poly .ntt} (hp : Alike c p q) : Option.Rel (Alike c) p.nttToPowerBasis q.nttToPowerBasis := by
  obtain ⟨f, v, v', rfl, rfl⟩ := hp
  rw [nttToPowerBasis_enc h, nttToPowerBasis_enc h]
  exact .some ⟨_, _, _, rfl, rfl⟩

theorem Alike.toNtt (h : c.WF b n) {p q : Poly .powerBasis} (hp : Alike c p q) : Option.Rel (Alike c) p.intoNtt q.intoNtt := by
  obtain ⟨f, v, v', rfl, rfl⟩ := hp
  rw [intoNtt_enc h, intoNtt_enc h]
  exact .some ⟨_, _, _, rfl, rfl⟩

theorem Alike.substitute (h : c.WF b n) (hn : n ≤ 31) {e : Nat} {s : SubstExponent} (he : e % 2 = 1) (hs : SubstExponent.new c e = some (.ok s)) {p q : Poly r} (hp : Alike c p q) :
    Option.Rel (Alike c) (p.substitute s) (q.substitute s) := by
  obtain ⟨f, v, v', rfl, rfl⟩ := hp
  rw [substitute_enc h hn he hs, substitute_enc h hn he hs]
  exact .some ⟨_, _, _, rfl, rfl⟩

theorem switchDown_next (h : c.WF b n) (hnext : c.next = some c') : c'.WF b n ∧ c'.moduli = c.moduli.dropLast := by
  rcases Nat.lt_or_ge c.moduli.length 2 with hl | hl
  · rw [h.next_none hl] at hnext; simp at hnext
  · obtain ⟨d, h1, h2, h3⟩ := h.next_some hl
    rw [hnext, Option.some_inj] at h1
    rw [h1]; exact ⟨h2, h3⟩

theorem Alike.switchDown (h : c.WF b n) {p q : Poly .powerBasis} (hp : Alike c p q) :
    Res.Same (fun p q => ∃ c', c'.WF b n ∧ c.next = some c' ∧ Alike c' p q) (math p.switchDown) (math q.switchDown) := by
  obtain ⟨f, v, v', rfl, rfl⟩ := hp
  cases hc : c.next with
  | none =>
    unfold Poly.switchDown
    rw [show (enc c .powerBasis v f).ctx = c from rfl, show (enc c .powerBasis v' f).ctx = c from rfl, hc]
    exact .err _
  | some c' =>
    obtain ⟨h1, h2⟩ := switchDown_next h hc
    rw [switchDown_enc h hc h1 h2, switchDown_enc h hc h1 h2]
    exact .ok ⟨c', h1, rfl, _, _, _, rfl, rfl⟩

theorem math_loop (k : Nat) (p : Poly .powerBasis) : math (switchDownLoop (k + 1) p) = math p.switchDown >>= fun p => math (switchDownLoop k p) := by
  conv_lhs => unfold switchDownLoop
  rcases p.switchDown with _ | _ | p <;> rfl

theorem Alike.loop : ∀ {k : Nat} {c : Context} (_ : c.WF b n) {p q : Poly .powerBasis} (_ : Alike c p q),
    Res.Same (fun p q => ∃ c', c'.WF b n ∧ Alike c' p q) (math (switchDownLoop k p)) (math (switchDownLoop k q))
  | 0, c, h, _, _, hp => .ok ⟨c, h, hp⟩
  | k + 1, c, h, p, q, hp => by
    rw [math_loop, math_loop]
    exact (hp.switchDown h).bind fun _ _ ⟨_, h1, _, h2⟩ => Alike.loop h1 h2

theorem math_target {p : Poly .powerBasis} {target : Context} {k : Nat} (h : p.ctx.niterationsTo target = .ok k) :
    math (p.switchDownTo target) = math (switchDownLoop k p) >>= fun p => if p.ctx ≠ target then Res.err (.math .contextNotReachable) else Res.ok p := by
  unfold Poly.switchDownTo
  rw [h]
  simp only []
  rcases switchDownLoop k p with _ | _ | p
  · rfl
  · rfl
  · show math (if p.ctx ≠ target then _ else _) = if p.ctx ≠ target then _ else _
    split <;> rfl

theorem Alike.switchDownTo (h : c.WF b n) {p q : Poly .powerBasis} (hp : Alike c p q) (target : Context) :
    Res.Same (fun p q => target.WF b n ∧ Alike target p q) (math (p.switchDownTo target)) (math (q.switchDownTo target)) := by
  cases hk : c.niterationsTo target with
  | error e =>
    unfold Poly.switchDownTo
    rw [hp.ctx.1, hp.ctx.2, hk]
    exact .err _
  | ok k =>
    rw [math_target (by rw [hp.ctx.1]; exact hk), math_target (by rw [hp.ctx.2]; exact hk)]
    refine (hp.loop (k := k) h).bind fun p q ⟨c', h1, h2⟩ => ?_
    rw [h2.ctx.1, h2.ctx.2]
    by_cases ht : c' = target
    · subst ht
      rw [if_neg (by simp), if_neg (by simp)]
      exact .ok ⟨h1, h2⟩
    · rw [if_pos ht, if_pos ht]
      exact .err _

theorem Alike.switchDownNtt (h : c.WF b n) {p q : Poly .ntt} (hp : Alike c p q) (target : Context) : Res.Same (Alike target) (p.switchDownNtt target) (q.switchDownNtt target) := by
  unfold Poly.switchDownNtt
  exact (Res.Same.lift (hp.toPowerBasis h)).bind fun _ _ h1 => (h1.switchDownTo h target).bind fun _ _ h2 => .lift (h2.2.toNtt h2.1)

end Poly
end Fhe
