import Verif.Lemmas.SameOps
import Verif.Lemmas.Portable
import Verif.Lemmas.BfvMultiplicator
import Verif.Lemmas.Laws
/-!
# Expansion, products, decryption and serialization of objects that differ in timing flags only
-/
namespace Fhe
open Nega Poly

variable {b : Build} {n : Nat} {c c' : Context} {r : Rep} {par : Par} {i : Nat} {x x' y y' : Ciphertext}

/-! ## Expansion -/

namespace EvaluationKey
variable {k k' : EvaluationKey}

/-- An entry of the output of the expansion: alike, or not written. -/
def Entry (par : Par) (i : Nat) (c : Context) (x y : Ciphertext) : Prop := Ciphertext.Alike par i c x y ∨ (x = Ciphertext.zero par ∧ y = Ciphertext.zero par)

theorem relinearizeInto_zero {g g' : GaloisKey} {R : Ciphertext → Ciphertext → Prop} (hg : g.Alike b n par g') (o o' : Ciphertext) :
    Res.Same R (g.relinearizeInto (Ciphertext.zero par) o) (g'.relinearizeInto (Ciphertext.zero par) o') := by
  unfold GaloisKey.relinearizeInto
  refine Res.Same.bind (R := fun _ _ => False) ?_ fun _ _ h => h.elim
  unfold GaloisKey.validateCiphertext Ciphertext.validateFor
  rw [← hg.ksk.par]
  split
  · exact .err _
  · refine Res.Same.bind (R := fun _ _ => False) ?_ fun _ _ h => h.elim
    exact (Res.Same.refl (R := fun a b => a = b) (fun _ => rfl) _).bind fun _ _ e => .err _

theorem mulMonomial_alike (h : c.WF b n) (hx : Ciphertext.Alike par i c x y) {m : Poly .nttShoup} (hm : m.Valid) (hmc : m.ctx = c) : Option.Rel (Ciphertext.Alike par i c) (mulMonomial x m) (mulMonomial y m) := by
  have hm' := Poly.Alike.refl h hm hmc
  unfold mulMonomial
  have hp := hx.parts
  generalize x.c = xs at *
  generalize y.c = ys at *
  match xs, ys, hp with
  | [], [], _ => exact .none
  | [_], [_], _ => exact .none
  | x0 :: x1 :: xs, y0 :: y1 :: ys, .cons h0 (.cons h1 ht) =>
    exact rel_bind (h0.mulShoup h hm') fun _ _ e0 => rel_bind (h1.mulShoup h hm') fun _ _ e1 => .some ⟨hx.par_eq, hx.level_eq, hx.seed_eq, hx.ctx_eq, .cons e0 (.cons e1 ht)⟩

theorem expandRow_alike (hw : ParWF b n par.toBfvParameters) (hc : par.contextAtLevel i = Res.ok c) {g g' : GaloisKey} (hg : g.Alike b n par g') {m : Poly .nttShoup} (hm : m.Valid) (hmc : m.ctx = c) (size step : Nat) :
    ∀ {xs ys : List Ciphertext} {j : Nat} {s s' : Ciphertext}, List.Forall₂ (Entry par i c) xs ys → (∀ p ∈ s.c, p.Valid) → (∀ p ∈ s'.c, p.Valid) →
    Res.Same (fun (u w : List Ciphertext × List Ciphertext × Ciphertext) => List.Forall₂ (Entry par i c) u.1 w.1 ∧ List.Forall₂ (Entry par i c) u.2.1 w.2.1 ∧ (∀ p ∈ u.2.2.c, p.Valid) ∧ ∀ p ∈ w.2.2.c, p.Valid)
      (expandRow g m size step j xs s) (expandRow g' m size step j ys s')
  | _, _, _, _, _, .nil, hs, hs' => .ok ⟨.nil, .nil, hs, hs'⟩
  | _, _, j, s, s', .cons (a := x) (b := y) (l₁ := xs) (l₂ := ys) h ht, hs, hs' => by
    unfold expandRow
    rcases h with h | ⟨rfl, rfl⟩
    · have hwf := h.wf hw
      refine (hg.relinearizeInto hw h hs hs').bind fun t t' e => ?_
      have rest : ∀ z z', Entry par i c z z' → Res.Same (fun (u w : List Ciphertext × List Ciphertext × Ciphertext) => List.Forall₂ (Entry par i c) u.1 w.1 ∧ List.Forall₂ (Entry par i c) u.2.1 w.2.1 ∧
          (∀ p ∈ u.2.2.c, p.Valid) ∧ ∀ p ∈ w.2.2.c, p.Valid)
          (lift (x.add t) >>= fun low => expandRow g m size step (j + 1) xs t >>= fun rest => pure (low :: rest.1, z :: rest.2.1, rest.2.2))
          (lift (y.add t') >>= fun low => expandRow g' m size step (j + 1) ys t' >>= fun rest => pure (low :: rest.1, z' :: rest.2.1, rest.2.2)) := fun _ _ eh =>
        (Res.Same.lift (h.add hwf e)).bind fun _ _ el => (expandRow_alike hw hc hg hm hmc size step ht (e.valid hw).1 (e.valid hw).2).bind fun _ _ er =>
          .ok ⟨.cons (.inl el) er.1, .cons eh er.2.1, er.2.2⟩
      by_cases hj : step ||| j < size
      · simp only [if_pos hj]
        exact (Res.Same.lift (h.sub hwf e)).bind fun _ _ e1 => (Res.Same.lift (mulMonomial_alike hwf e1 hm hmc)).bind fun _ _ e2 => rest _ _ (.inl e2)
      · simp only [if_neg hj]
        exact rest _ _ (.inr ⟨by rw [h.par_eq.1], by rw [h.par_eq.2]⟩)
    · exact (relinearizeInto_zero (R := fun _ _ => False) hg _ _).bind fun _ _ h => h.elim

theorem expandLoop_alike (hw : ParWF b n par.toBfvParameters) (hc : par.contextAtLevel i = Res.ok c) (hk : k.Alike b n par k') (hm : ∀ m ∈ k.monomials, m.Valid ∧ m.ctx = c) (size : Nat) :
    ∀ {left l : Nat} {xs ys : List Ciphertext} {s s' : Ciphertext}, List.Forall₂ (Entry par i c) xs ys → (∀ p ∈ s.c, p.Valid) → (∀ p ∈ s'.c, p.Valid) →
    Res.Same (List.Forall₂ (Entry par i c)) (expandLoop k size left l xs s) (expandLoop k' size left l ys s')
  | 0, _, _, _, _, _, h, _, _ => .ok h
  | left + 1, l, xs, ys, s, s', h, hs, hs' => by
    unfold expandLoop
    rw [← hk.monomials, hk.par_eq.1, hk.par_eq.2]
    cases hml : k.monomials[l]? with
    | none => exact .err _
    | some m =>
      obtain ⟨m1, m2⟩ := hm m (List.mem_of_getElem? hml)
      refine (hk.getKey _).bind fun _ _ hg => (expandRow_alike hw hc hg m1 m2 size (2 ^ l) h hs hs').bind fun u w ⟨e1, e2, e3, e4⟩ => ?_
      exact expandLoop_alike hw hc hk hm size (List.rel_append e1 e2) e3 e4

theorem Alike.expands (hw : ParWF b n par.toBfvParameters) (hk : k.Alike b n par k') (hmon : ∃ ctx, par.contextAtLevel k.ciphertextLevel = Res.ok ctx ∧ makeMonomials par.degree ctx = Res.ok k.monomials)
    (hx : Ciphertext.Alike par i c x y) (size : Nat) : Res.Same (List.Forall₂ (Entry par i c)) (k.expands x size) (k'.expands y size) := by
  unfold EvaluationKey.expands
  rw [← hk.validate hx, hk.par_eq.1, hk.par_eq.2]
  rcases Res.cases (k.validateCiphertext x) with ⟨u, hv⟩ | ⟨e, hv⟩ | hv
  · rw [hv, Res.ok_bind, Res.ok_bind]
    have hlev : i = k.ciphertextLevel := by
      unfold EvaluationKey.validateCiphertext at hv
      rw [Res.bind_eq_ok] at hv
      obtain ⟨-, -, hv⟩ := hv
      split at hv
      · cases hv
      · split at hv
        · cases hv
        · rename_i h; rw [← hx.level_eq.1]; simpa using h
    have hm : ∀ m ∈ k.monomials, m.Valid ∧ m.ctx = c := by
      obtain ⟨ctx, h1, h2⟩ := hmon
      rw [← hlev, hx.ctx_eq, Res.ok_inj] at h1
      subst h1
      obtain ⟨l, ha, rfl⟩ := AtLevel.ofContext hw hx.ctx_eq
      obtain ⟨ms, e1, e2, e3⟩ := makeMonomials_eq hw ha
      rw [h2, Res.ok_inj] at e1
      subst e1
      intro m hm
      obtain ⟨a, hl, rfl⟩ := List.getElem_of_mem hm
      obtain ⟨p, f1, f, f2, -⟩ := e3 a (by omega)
      rw [List.getElem?_eq_getElem hl, Option.some_inj] at f1
      rw [f1]
      exact ⟨f2.valid, f2.ctx⟩
    split
    · exact .err _
    split
    · exact .err _
    simp only []
    split
    · exact .ok (.cons (.inl hx) .nil)
    rw [hk.supports.2.2.2]
    refine (Res.Same.refl (R := fun a b => a = b) (fun _ => rfl) _).bind fun s _ e => ?_
    subst e
    split
    · exact (expandLoop_alike hw hx.ctx_eq hk hm size (.cons (.inl hx) .nil) (by simp [Ciphertext.zero]) (by simp [Ciphertext.zero])).bind fun _ _ e => .ok (List.forall₂_take _ e)
    · exact .err _
  · rw [hv]; exact .err e
  · rw [hv]; exact .panic

end EvaluationKey

/-! ## Plaintexts -/

theorem Poly.Alike.toBigUint {p q : Poly r} (h : Poly.Alike c p q) : p.toBigUint = q.toBigUint := by
  obtain ⟨f, v, v', rfl, rfl⟩ := h
  rfl

theorem Poly.Alike.allow_eq {p q : Poly r} (h : Poly.Alike c p q) : p.allowVt = q.allowVt := by
  obtain ⟨f, v, v', rfl, rfl⟩ := h
  rfl

structure Plaintext.Alike (par : Par) (i : Nat) (c : Context) (p q : Plaintext) : Prop where
  par_eq : p.par = par ∧ q.par = par
  ctx_eq : par.contextAtLevel i = Res.ok c
  poly : Poly.Alike c p.polyNtt q.polyNtt

namespace Plaintext
variable {p q : Plaintext}

theorem Holds.alike (hw : ParWF b n par.toBfvParameters) {j : Nat} {m m' : par.Msg} (hp : p.Holds par i m) (hq : q.Holds par j m') (hb : p.beq q = true) : ∃ c, Alike par i c p q := by
  obtain ⟨l, ha, hl⟩ := AtLevel.ofContext hw hp.ctx
  unfold beq at hb
  rw [Bool.and_eq_true, Bool.and_eq_true] at hb
  exact ⟨l.ctx, ⟨hp.par_eq, hq.par_eq⟩, ha.contextAt, .of_beq ha.wf hp.valid hl.symm hb.1.2⟩

theorem Alike.level_eq (h : Alike par i c p q) : p.level = q.level := by
  unfold Plaintext.level; rw [h.par_eq.1, h.par_eq.2, h.poly.ctx.1, h.poly.ctx.2]

theorem Alike.level_some (hw : ParWF b n par.toBfvParameters) (h : Alike par i c p q) : p.level = some i := by
  obtain ⟨l, ha, rfl⟩ := AtLevel.ofContext hw h.ctx_eq
  unfold Plaintext.level; rw [h.par_eq.1, h.poly.ctx.1, ha.length]
  have := ha.lt
  rw [subU_eq (by omega)]; congr 1; omega

theorem Alike.validateContext (h : Alike par i c p q) (j : Nat) (d : Context) : p.validateContext j d = q.validateContext j d := by
  unfold Plaintext.validateContext; rw [h.level_eq, h.poly.ctx.1, h.poly.ctx.2]

theorem Alike.validateFor (h : Alike par i c p q) (P : Par) : p.validateFor P = q.validateFor P := by
  unfold Plaintext.validateFor; simp only [h.par_eq.1, h.par_eq.2, h.level_eq, h.validateContext]

theorem Alike.validateForContext (h : Alike par i c p q) (P : Par) (j : Nat) (d : Context) : p.validateForContext P j d = q.validateForContext P j d := by
  unfold Plaintext.validateForContext; simp only [h.par_eq.1, h.par_eq.2, h.validateContext]

theorem Alike.coefficients (hw : ParWF b n par.toBfvParameters) (h : Alike par i c p q) : p.coefficients = q.coefficients := by
  obtain ⟨l, ha, rfl⟩ := AtLevel.ofContext hw h.ctx_eq
  apply rel_eq
  unfold Plaintext.coefficients
  refine rel_bind (h.poly.toPowerBasis ha.wf) fun u w e => ?_
  have e1 : u.toU64 = w.toU64 := by unfold Poly.toU64; rw [e.coeffs]
  rw [h.par_eq.1, h.par_eq.2, h.poly.ctx.1, h.poly.ctx.2, e1, e.toBigUint]
  exact rel_refl (fun _ => rfl) _

theorem Alike.toPoly (hw : ParWF b n par.toBfvParameters) (h : Alike par i c p q) : p.toPoly = q.toPoly := by
  unfold Plaintext.toPoly; rw [h.level_eq, h.coefficients hw, h.par_eq.1, h.par_eq.2]

theorem Alike.decode (hw : ParWF b n par.toBfvParameters) (h : Alike par i c p q) {e : Option Encoding} (he : p.resolveEncoding e = q.resolveEncoding e) :
    p.decodeU64 e = q.decodeU64 e ∧ p.decodeI64 e = q.decodeI64 e ∧ p.decodeBigUint e = q.decodeBigUint e := by
  have hs : ∀ v, p.decodeSimdU64 v = q.decodeSimdU64 v := fun v => by unfold Plaintext.decodeSimdU64; rw [h.par_eq.1, h.par_eq.2]
  have h1 : p.decodeU64 e = q.decodeU64 e := by unfold decodeU64; simp only [he, h.coefficients hw, hs]
  have h2 : p.decodeBigUint e = q.decodeBigUint e := by unfold decodeBigUint; simp only [he, h.coefficients hw, hs]
  exact ⟨h1, by unfold decodeI64; rw [h1, h2, h.par_eq.1, h.par_eq.2], h2⟩

end Plaintext

namespace Ciphertext
variable {p q : Plaintext} {j : Nat}

theorem Alike.mulPlain (hw : ParWF b n par.toBfvParameters) (h : Alike par i c x y) (hp : Plaintext.Alike par j c' p q) : Option.Rel (Alike par i c) (x.mulPlain p) (y.mulPlain q) := by
  have hc := h.wf hw
  unfold Ciphertext.mulPlain
  rw [h.par_eq.1, h.par_eq.2, hp.par_eq.1, hp.par_eq.2, ptrEq_self, h.level_eq.1, h.level_eq.2, ← hp.level_eq]
  refine rel_check _ fun _ => ?_
  by_cases h1 : x.c = []
  · rw [if_pos h1, if_pos (h.nil_iff.1 h1)]
    exact .some ⟨⟨rfl, rfl⟩, ⟨rfl, rfl⟩, rfl, h.ctx_eq, h.parts⟩
  · rw [if_neg h1, if_neg (fun e => h1 (h.nil_iff.2 e))]
    obtain ⟨l, ha, rfl⟩ := AtLevel.ofContext hw hp.ctx_eq
    rw [hp.level_some hw]
    simp only [Option.bind_eq_bind, Option.bind_some]
    simp only [← Option.bind_eq_bind]
    refine rel_check _ fun hij => ?_
    subst hij
    have hcc := h.ctx_eq
    rw [hp.ctx_eq, Res.ok_inj] at hcc
    subst hcc
    exact rel_bind (rel_mapM (fun _ _ e => e.mul hc hp.poly) h.parts) fun _ _ e => .some ⟨⟨rfl, rfl⟩, ⟨rfl, rfl⟩, rfl, h.ctx_eq, e⟩

theorem Alike.addPlain (hw : ParWF b n par.toBfvParameters) (h : Alike par i c x y) (hp : Plaintext.Alike par j c' p q) (hP : ∀ s, p.toPoly = some s → s.Valid ∧ s.ctx = c') :
    Option.Rel (Alike par i c) (x.addPlain p) (y.addPlain q) ∧ Option.Rel (Alike par i c) (x.subPlain p) (y.subPlain q) := by
  have hc := h.wf hw
  unfold Ciphertext.addPlain Ciphertext.subPlain
  rw [h.par_eq.1, h.par_eq.2, hp.par_eq.1, hp.par_eq.2, ptrEq_self, h.level_eq.1, h.level_eq.2, ← hp.level_eq, ← hp.toPoly hw, hp.level_some hw]
  have hpar := h.parts
  have hctx := h.ctx_eq
  generalize x.c = xs at *
  generalize y.c = ys at *
  cases hpar with
  | nil => exact ⟨rel_check _ fun _ => .none, rel_check _ fun _ => .none⟩
  | cons h0 ht =>
    simp only [Option.bind_eq_bind, Option.bind_some]
    simp only [← Option.bind_eq_bind]
    have key : i = j → Option.Rel (fun s s' => s = s' ∧ Poly.Alike c s s) p.toPoly p.toPoly := by
      intro hij
      subst hij
      rw [hp.ctx_eq, Res.ok_inj] at hctx
      subst hctx
      cases hs : p.toPoly with
      | none => exact .none
      | some s => exact .some ⟨rfl, .refl hc (hP s hs).1 (hP s hs).2⟩
    constructor
    · refine rel_check _ fun _ => rel_check _ fun hij => rel_bind (key hij) fun s _ e => ?_
      obtain ⟨rfl, e⟩ := e
      exact rel_bind (h0.add hc (by simp) e) fun _ _ e => .some ⟨⟨rfl, rfl⟩, ⟨rfl, rfl⟩, rfl, h.ctx_eq, .cons e ht⟩
    · refine rel_check _ fun _ => rel_check _ fun hij => rel_bind (key hij) fun s _ e => ?_
      obtain ⟨rfl, e⟩ := e
      exact rel_bind (h0.sub hc (by simp) e) fun _ _ e => .some ⟨⟨rfl, rfl⟩, ⟨rfl, rfl⟩, rfl, h.ctx_eq, .cons e ht⟩

theorem Alike.plainSub (hw : ParWF b n par.toBfvParameters) (h : Alike par i c x y) (hp : Plaintext.Alike par j c' p q) (hP : ∀ s, p.toPoly = some s → s.Valid ∧ s.ctx = c') :
    Option.Rel (Alike par i c) (Ciphertext.plainSub p x) (Ciphertext.plainSub q y) := by
  unfold Ciphertext.plainSub
  exact rel_bind (h.addPlain hw hp hP).2 fun _ _ e => e.neg (h.wf hw)

/-! ## Decryption -/

theorem phaseLoop_alike (h : c.WF b n) (s : Poly .ntt) : ∀ {ps qs : List (Poly .ntt)} (_ : List.Forall₂ (Poly.Alike c) ps qs) (a si : Poly .ntt), SecretKey.phaseLoop s ps a si = SecretKey.phaseLoop s qs a si ∧
    SecretKey.noiseLoop s ps a si = SecretKey.noiseLoop s qs a si
  | _, _, .nil, _, _ => ⟨rfl, rfl⟩
  | _, _, .cons (l₁ := ps) (l₂ := qs) hp ht, a, si => by
    have hnil : ps = [] ↔ qs = [] := by rw [← List.length_eq_zero_iff, ← List.length_eq_zero_iff, ht.length_eq]
    constructor
    · unfold SecretKey.phaseLoop
      simp only [hp.disallow.1, hnil, (phaseLoop_alike h s ht _ _).1]
    · unfold SecretKey.noiseLoop
      simp only [hp.disallow.1, (phaseLoop_alike h s ht _ _).2]

theorem Alike.tryDecrypt (hw : ParWF b n par.toBfvParameters) (h : Alike par i c x y) (sk : SecretKey) : sk.tryDecrypt b x = sk.tryDecrypt b y ∧ sk.measureNoise b x = sk.measureNoise b y := by
  have hc := h.wf hw
  have h1 : sk.tryDecrypt b x = sk.tryDecrypt b y := by
    unfold SecretKey.tryDecrypt SecretKey.phase
    rw [h.validateFor, h.level_eq.1, h.level_eq.2]
    have hpar := h.parts
    generalize x.c = xs at *
    generalize y.c = ys at *
    cases hpar with
    | nil => rfl
    | cons h0 ht =>
      simp only [h0.ctx.1, h0.ctx.2, h0.disallow.1, (phaseLoop_alike hc _ ht _ _).1, List.head?_cons, Option.map_some]
  refine ⟨h1, ?_⟩
  unfold SecretKey.measureNoise
  rw [h1]
  have hpar := h.parts
  generalize x.c = xs at *
  generalize y.c = ys at *
  cases hpar with
  | nil => rfl
  | cons h0 ht => simp only [h0.ctx.1, h0.ctx.2, h0.disallow.1, (phaseLoop_alike hc _ ht _ _).2]

/-! ## Products -/

theorem Alike.is {l : ContextLevel} (ha : AtLevel b n par i l) (h : Alike par i l.ctx x y) : ∃ F, x.Is par i l F ∧ y.Is par i l F ∧ F.length = x.c.length := by
  have := ha.wf.neZero
  have hpar := h.parts
  suffices hs : ∃ F : List (IntPoly par.degree), Parts l.ctx x.c F ∧ Parts l.ctx y.c F by
    obtain ⟨F, h1, h2⟩ := hs
    exact ⟨F, ⟨h.par_eq.1, h.level_eq.1, h1⟩, ⟨h.par_eq.2, h.level_eq.2, h2⟩, h1.length_eq.symm⟩
  generalize x.c = xs at *
  generalize y.c = ys at *
  clear h
  induction hpar with
  | nil => exact ⟨[], .nil, .nil⟩
  | cons h0 _ ih =>
    obtain ⟨F, h1, h2⟩ := ih
    obtain ⟨f, v, v', rfl, rfl⟩ := h0
    obtain ⟨X, rfl, -⟩ := exists_ofInt (c := l.ctx) ha.deg f
    exact ⟨X :: F, .cons ⟨v, rfl⟩ h1, .cons ⟨v', rfl⟩ h2⟩

theorem Alike.of_is {l : ContextLevel} (ha : AtLevel b n par i l) {F : List (IntPoly par.degree)} (hx : x.Is par i l F) (hy : y.Is par i l F) (hs : x.seed = y.seed) : Alike par i l.ctx x y := by
  refine ⟨⟨hx.par_eq, hy.par_eq⟩, ⟨hx.level_eq, hy.level_eq⟩, hs, ha.contextAt, ?_⟩
  have h1 := hx.parts
  have h2 := hy.parts
  clear hx hy hs
  generalize x.c = xs at *
  generalize y.c = ys at *
  induction h1 generalizing ys with
  | nil => cases h2; exact .nil
  | cons e _ ih =>
    cases h2 with
    | cons e' h2 =>
      obtain ⟨v, rfl⟩ := e
      obtain ⟨v', rfl⟩ := e'
      exact .cons ⟨_, v, v', rfl, rfl⟩ (ih _ h2)

theorem Alike.mul (hw : ParWF b n par.toBfvParameters) (hcount : par.moduli.length ≤ 31) (hsum : par.moduli.sum ≤ 2 ^ 65) {j : Nat} (h : Alike par i c x y) (h' : Alike par j c' x' y') (h2 : 2 ≤ x.c.length)
    (h2' : 2 ≤ x'.c.length) : Option.Rel (Alike par i c) (x.mul x') (y.mul y') := by
  obtain ⟨l, ha, rfl⟩ := AtLevel.ofContext hw h.ctx_eq
  by_cases hij : i = j
  · subst hij
    have hcc := h'.ctx_eq
    rw [h.ctx_eq, Res.ok_inj] at hcc
    subst hcc
    obtain ⟨F, f1, f2, f3⟩ := h.is ha
    obtain ⟨G, g1, g2, g3⟩ := h'.is ha
    obtain ⟨ext, down, hm⟩ := Is.mul hw hcount hsum ha
    obtain ⟨r, e1, e2, e3⟩ := hm f1 g1 (by omega) (by omega)
    obtain ⟨r', e1', e2', e3'⟩ := hm f2 g2 (by omega) (by omega)
    rw [e1, e1']
    exact .some (.of_is ha e3 e3' (by rw [e2, e2']))
  · have key : ∀ {u w : Ciphertext}, u.level = i → w.level = j → 2 ≤ u.c.length → u.mul w = none := by
      intro u w h1 h2 h3
      unfold Ciphertext.mul
      have hb : w.beq u = false := by
        unfold Ciphertext.beq
        rw [h1, h2, show decide (j = i) = false by simpa using Ne.symm hij, Bool.and_false]
      rw [if_neg (by intro e; rw [e] at h3; simp at h3), hb, if_neg (by simp), h1, h2, check, check]
      simp only [hij, if_false]
      split <;> rfl
    rw [key h.level_eq.1 h'.level_eq.1 h2, key h.level_eq.2 h'.level_eq.2 (h.length ▸ h2)]
    exact .none

end Ciphertext

open Ciphertext

theorem Scaler.Scales.alike {N num den : Nat} {S : Scaler} (hS : S.Scales N c c' num den) (hN : c.degree = N) (h : c.WF b n) {p q : Poly .ntt} (hp : Poly.Alike c p q) :
    Res.Same (Poly.Alike c') (math (S.scale p)) (math (S.scale q)) := by
  have := h.neZero
  obtain ⟨f, v, v', rfl, rfl⟩ := hp
  obtain ⟨X, rfl, -⟩ := exists_ofInt (c := c) hN f
  obtain ⟨A, Z, E, -, -, -, -, -, hs⟩ := hS X
  have h1 := hs .ntt v (by simp)
  have h2 := hs .ntt v' (by simp)
  unfold encI at h1 h2
  rw [h1, h2]
  exact .ok ⟨_, v, v', rfl, rfl⟩

namespace Multiplicator
variable {mp mp' : Multiplicator} {l : ContextLevel} {σ : MulStrategy}

theorem product_alike (hf : mp.Follows par.degree σ par i l) (ha : AtLevel b n par i l) {p0 p1 q0 q1 p0' p1' q0' q1' : Poly .ntt} (h0 : Poly.Alike l.ctx p0 p0') (h1 : Poly.Alike l.ctx p1 p1') (g0 : Poly.Alike l.ctx q0 q0')
    (g1 : Poly.Alike l.ctx q1 q1') : Res.Same (fun u w => Poly.Alike l.ctx u.1 w.1 ∧ Poly.Alike l.ctx u.2.1 w.2.1 ∧ Poly.Alike l.ctx u.2.2 w.2.2) (mp.product p0 p1 q0 q1) (mp.product p0' p1' q0' q1') := by
  obtain ⟨b', n', hwf⟩ := hf.wf
  unfold Multiplicator.product
  refine (hf.lhs.alike ha.deg ha.wf h0).bind fun _ _ e00 => (hf.lhs.alike ha.deg ha.wf h1).bind fun _ _ e01 => (hf.rhs.alike ha.deg ha.wf g0).bind fun _ _ e10 => (hf.rhs.alike ha.deg ha.wf g1).bind fun _ _ e11 => ?_
  refine (Res.Same.lift (e00.mul hwf e10)).bind fun _ _ a0 => (Res.Same.lift (e00.mul hwf e11)).bind fun _ _ a1 => (Res.Same.lift (e01.mul hwf e10)).bind fun _ _ a2 => ?_
  refine (Res.Same.lift (a1.add hwf (by simp) a2)).bind fun _ _ a1 => (Res.Same.lift (e01.mul hwf e11)).bind fun _ _ a2 => ?_
  exact (hf.post.alike hf.deg hwf a0).bind fun _ _ z0 => (hf.post.alike hf.deg hwf a1).bind fun _ _ z1 => (hf.post.alike hf.deg hwf a2).bind fun _ _ z2 => .ok ⟨z0, z1, z2⟩

end Multiplicator
end Fhe
