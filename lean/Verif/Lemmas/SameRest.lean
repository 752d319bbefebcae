import Verif.Lemmas.SameMore
import Verif.Lemmas.BfvDot
/-!
# Dot products, multiplication strategies, external products, serialization and encryption of objects that differ in timing flags only
-/
namespace Fhe
open Nega Poly

variable {b : Build} {n : Nat} {c c' : Context} {r : Rep} {par : Par} {i : Nat} {x x' y y' : Ciphertext}

/-! ## Symmetry and transitivity -/

theorem Poly.Alike.symm {p q : Poly r} (h : Poly.Alike c p q) : Poly.Alike c q p := by
  obtain ⟨f, v, v', h1, h2⟩ := h
  exact ⟨f, v', v, h2, h1⟩

theorem Poly.Alike.of_beq_left {p p' q : Poly r} (hb : p.beq p' = true) (h : Poly.Alike c p' q) : Poly.Alike c p q := by
  obtain ⟨f, v, v', h1, h2⟩ := h
  refine ⟨f, p.vt, v', ?_, h2⟩
  have h3 := beq_iff.1 hb
  have : p = { p' with vt := p.vt } := by
    have : ({ ({ p with vt := false } : Poly r) with vt := p.vt } : Poly r) = { ({ p' with vt := false } : Poly r) with vt := p.vt } := by rw [h3]
    exact this
  rw [this, h1]; rfl

namespace Ciphertext

theorem Alike.symm (h : Alike par i c x y) : Alike par i c y x :=
  ⟨h.par_eq.symm, h.level_eq.symm, h.seed_eq.symm, h.ctx_eq, List.Forall₂.flip (h.parts.imp fun _ _ e => e.symm)⟩

theorem Alike.of_beq_left (hp : x.par = par) (hb : x.beq x' = true) (h : Alike par i c x' y) : Alike par i c x y := by
  unfold Ciphertext.beq at hb
  simp only [Bool.and_eq_true, decide_eq_true_eq] at hb
  obtain ⟨⟨⟨⟨-, h2⟩, h3⟩, h4⟩, h5⟩ := hb
  refine ⟨⟨hp, h.par_eq.2⟩, ⟨h5.trans h.level_eq.1, h.level_eq.2⟩, h2.trans h.seed_eq, h.ctx_eq, ?_⟩
  have hq := h.parts
  generalize x.c = xs at *
  generalize x'.c = xs' at *
  generalize y.c = ys at *
  clear h h2 h5
  induction hq generalizing xs with
  | nil => rw [List.length_eq_zero_iff.1 h3]; exact .nil
  | cons e _ ih =>
    match xs, h3, h4 with
    | u :: us, h3, h4 =>
      simp only [List.zip_cons_cons, List.all_cons, Bool.and_eq_true] at h4
      exact .cons (.of_beq_left h4.1 e) (ih us h4.2 (by simpa using h3))

/-! ## The dot product -/

/-- Alike operands. -/
def DotAlike (par : Par) (x y : Ciphertext × Plaintext) : Prop := (∃ i c, Alike par i c x.1 y.1) ∧ ∃ j c', Plaintext.Alike par j c' x.2 y.2

theorem dotValidate_alike {u w : Ciphertext} (hu : Alike par i c u w) (d : Context) : ∀ {xs ys : List (Ciphertext × Plaintext)}, List.Forall₂ (DotAlike par) xs ys → dotValidate u d xs = dotValidate w d ys
  | _, _, .nil => rfl
  | (x, p) :: xs, (y, q) :: ys, .cons ⟨⟨j, e, h⟩, k, e', h'⟩ ht => by
    rw [dotValidate, dotValidate, h.validateForContext, h'.validateForContext, hu.par_eq.1, hu.par_eq.2, hu.level_eq.1, hu.level_eq.2, h.length, hu.length, dotValidate_alike hu d ht]

theorem fold_alike (hw : ParWF b n par.toBfvParameters) : ∀ {xs ys : List (Ciphertext × Plaintext)} {u w : Ciphertext}, List.Forall₂ (DotAlike par) xs ys → (∀ x ∈ xs, x.1.level = i) → Alike par i c u w →
    Option.Rel (Alike par i c) (xs.foldlM (fun (acc : Ciphertext) x => do acc.add (← x.1.mulPlain x.2)) u) (ys.foldlM (fun (acc : Ciphertext) x => do acc.add (← x.1.mulPlain x.2)) w)
  | _, _, _, _, .nil, _, h => .some h
  | (x, p) :: xs, (y, q) :: ys, u, w, .cons ⟨⟨j, e, h⟩, k, e', h'⟩ ht, hl, hu => by
    have hj : j = i := h.level_eq.1.symm.trans (hl (x, p) (by simp))
    rw [hj] at h
    have hc : Res.ok e = Res.ok c := h.ctx_eq.symm.trans hu.ctx_eq
    rw [Res.ok_inj] at hc
    rw [hc] at h
    rw [List.foldlM_cons, List.foldlM_cons]
    exact rel_bind (rel_bind (h.mulPlain hw h') fun _ _ e1 => hu.add (hu.wf hw) e1) fun _ _ e2 => fold_alike hw ht (fun z hz => hl z (List.mem_cons_of_mem _ hz)) e2

theorem dotProduct_alike (hw : ParWF b n par.toBfvParameters) {xs ys : List (Ciphertext × Plaintext)} (h : List.Forall₂ (DotAlike par) xs ys) :
    Res.Same (fun r r' => ∃ i c, Alike par i c r r') (dotProductScalar (xs.map Prod.fst) (xs.map Prod.snd)) (dotProductScalar (ys.map Prod.fst) (ys.map Prod.snd)) := by
  cases h with
  | nil => exact .err _
  | @cons x0 y0 xs ys h0 ht =>
    have hall : List.Forall₂ (DotAlike par) (x0 :: xs) (y0 :: ys) := .cons h0 ht
    obtain ⟨⟨i, c, ha⟩, k, e', hb⟩ := h0
    have hv := dotValidate_alike ha c hall
    have hzip : ∀ zs : List (Ciphertext × Plaintext), (zs.map Prod.fst).zip (zs.map Prod.snd) = zs := fun zs => by rw [List.zip_map']; simp
    have hlen := hall.length_eq
    obtain ⟨l, hal, rfl⟩ := AtLevel.ofContext hw ha.ctx_eq
    rcases Res.cases (dotValidate x0.1 l.ctx (x0 :: xs)) with ⟨u, hok⟩ | ⟨e, hok⟩ | hok
    · cases u
      have hctxlen : ∀ {zs : List (Ciphertext × Plaintext)}, (∀ z ∈ zs, ∃ j c', z.2.par = par ∧ par.contextAtLevel j = Res.ok c' ∧ z.2.polyNtt.ctx = c') → ∀ z ∈ zs, z.2.polyNtt.ctx.moduli.length ≤ z.2.par.moduli.length := by
        intro zs hz z hzm
        obtain ⟨j, c', e1, e2, rfl⟩ := hz z hzm
        obtain ⟨l', ha', e3⟩ := AtLevel.ofContext hw e2
        rw [← e3, ha'.length, e1]; omega
      have hmem : ∀ {zs ws : List (Ciphertext × Plaintext)}, List.Forall₂ (DotAlike par) zs ws → (∀ z ∈ zs, ∃ w, DotAlike par z w) ∧ ∀ w ∈ ws, ∃ z, DotAlike par z w := by
        intro zs ws hz
        induction hz with
        | nil => simp
        | cons e _ ih =>
          refine ⟨fun z hz => ?_, fun z hz => ?_⟩
          · rcases List.mem_cons.1 hz with rfl | hz
            exacts [⟨_, e⟩, ih.1 z hz]
          · rcases List.mem_cons.1 hz with rfl | hz
            exacts [⟨_, e⟩, ih.2 z hz]
      obtain ⟨m1, m2⟩ := hmem hall
      have s1 := (dotValidate_spec (first := x0.1) (ctx := l.ctx) (hctxlen (zs := x0 :: xs) fun z hz => by
        obtain ⟨w, -, j, c', e⟩ := m1 z hz
        exact ⟨j, c', e.par_eq.1, e.ctx_eq, e.poly.ctx.1⟩)).2 hok
      have s2 := (dotValidate_spec (first := y0.1) (ctx := l.ctx) (hctxlen (zs := y0 :: ys) fun z hz => by
        obtain ⟨w, -, j, c', e⟩ := m2 z hz
        exact ⟨j, c', e.par_eq.2, e.ctx_eq, e.poly.ctx.2⟩)).2 (hv ▸ hok)
      have hL : 2 ≤ x0.1.c.length := (s1 x0 (by simp)).2.2.2.1
      have o1 : ∀ z ∈ x0 :: xs, DotOperand par i x0.1.c.length z := fun z hz => by
        obtain ⟨a1, a2, a3, a4, a5, a6, a7⟩ := s1 z hz
        obtain ⟨w, ⟨j, d, e⟩, k, d', e'⟩ := m1 z hz
        have hj := e.level_eq.1
        rw [a2, ha.level_eq.1] at hj
        subst hj
        exact ⟨e.par_eq.1, e.level_eq.1, a3, fun p hp => ⟨by rw [a5 p hp, hal.contextAt], (e.valid hw).1 p hp⟩, e'.par_eq.1, by rw [a7, hal.contextAt],
          by obtain ⟨l', ha', rfl⟩ := AtLevel.ofContext hw e'.ctx_eq; exact (e'.poly.valid ha'.wf).1⟩
      have o2 : ∀ z ∈ y0 :: ys, DotOperand par i x0.1.c.length z := fun z hz => by
        obtain ⟨a1, a2, a3, a4, a5, a6, a7⟩ := s2 z hz
        obtain ⟨w, ⟨j, d, e⟩, k, d', e'⟩ := m2 z hz
        have hj := e.level_eq.2
        rw [a2, ha.level_eq.2] at hj
        subst hj
        exact ⟨e.par_eq.2, e.level_eq.2, a3.trans ha.length.symm, fun p hp => ⟨by rw [a5 p hp, hal.contextAt], (e.valid hw).2 p hp⟩, e'.par_eq.2, by rw [a7, hal.contextAt],
          by obtain ⟨l', ha', rfl⟩ := AtLevel.ofContext hw e'.ctx_eq; exact (e'.poly.valid ha'.wf).2⟩
      obtain ⟨r, r', h1, h2, h3, h4⟩ := dotProductScalar_naive hw hL (by simp) o1
      obtain ⟨t, t', g1, g2, g3, g4⟩ := dotProductScalar_naive hw hL (by simp) o2
      rw [h1, g1]
      have hm := ha.mulPlain hw hb
      have key : Option.Rel (Alike par i l.ctx) (Ciphertext.sumProducts par (x0 :: xs)) (Ciphertext.sumProducts par (y0 :: ys)) := by
        cases ea : x0.1.mulPlain x0.2 with
        | none =>
          unfold Ciphertext.sumProducts at h2
          rw [List.foldlM_cons, ea] at h2
          cases h2
        | some p0 =>
          rw [ea] at hm
          cases eb : y0.1.mulPlain y0.2 with
          | none => rw [eb] at hm; cases hm
          | some q0 =>
            rw [eb] at hm
            cases hm with
            | some hm =>
              rw [sumProducts_cons ea hm.par_eq.1, sumProducts_cons eb hm.par_eq.2]
              exact fold_alike hw ht (fun z hz => (o1 z (List.mem_cons_of_mem _ hz)).level) hm
      rw [h2, g2] at key
      cases key with
      | some key => exact .ok ⟨i, l.ctx, (Alike.of_beq_left g4 g3 (Alike.of_beq_left h4 h3 key).symm).symm⟩
    all_goals
      unfold dotProductScalar
      rw [hzip, hzip, if_neg (by simp), if_neg (by simp), if_neg (by simp), if_neg (by simp)]
      simp only [List.map_cons]
      rw [ha.par_eq.1, ha.par_eq.2, ha.level_eq.1, ha.level_eq.2, ← ha.validateFor, ha.ctx_eq, Res.ok_bind, Res.ok_bind, ← hv, hok]
      rcases Res.cases (x0.1.validateFor par) with ⟨u, hok'⟩ | ⟨e, hok'⟩ | hok' <;> rw [hok']
      · first | exact .err _ | exact .panic
      · exact .err _
      · exact .panic

end Ciphertext

/-! ## Multiplication strategies -/

namespace Multiplicator
variable {mp mp' : Multiplicator} {l : ContextLevel} {σ : MulStrategy}

/-- Multiplicators that differ in the timing flags of their keys only. -/
structure Alike (b : Build) (n : Nat) (mp mp' : Multiplicator) : Prop where
  eq : mp' = { mp with rk := mp'.rk }
  rk : Option.Rel (fun k k' : RelinearizationKey => k.ksk.Alike b n k'.ksk) mp.rk mp'.rk

theorem default_alike {k k' : RelinearizationKey} (hk : k.ksk.Alike b n k'.ksk) : Res.Same (Alike b n) (default b k) (default b k') := by
  unfold default
  rw [← hk.par, ← hk.ciphertextLevel]
  refine (Res.Same.refl (R := fun a b => a = b) (fun _ => rfl) _).bind fun ctx _ e => ?_
  subst e
  refine (Res.Same.refl (R := fun a b => a = b) (fun _ => rfl) _).bind fun _ _ _ => ?_
  refine (Res.Same.refl (R := fun a b => a = b) (fun _ => rfl) _).bind fun ext _ e => ?_
  subst e
  refine (Res.Same.refl (R := fun a b => a = b) (fun _ => rfl) _).bind fun post _ e => ?_
  subst e
  refine (Res.Same.refl (R := fun a b => a = b) (fun _ => rfl) _).bind fun mp _ e => ?_
  subst e
  unfold enableRelinearization
  rw [← hk.ciphertextLevel]
  refine (Res.Same.refl (R := fun a b => a = b) (fun _ => rfl) _).bind fun c _ e => ?_
  subst e
  split
  · exact .err _
  · exact .ok ⟨rfl, .some hk⟩

theorem Alike.enableModSwitching (h : Alike b n mp mp') : Res.Same (Alike b n) mp.enableModSwitching mp'.enableModSwitching := by
  obtain ⟨h1, h2⟩ := h
  have e1 : mp'.par = mp.par := by rw [h1]
  have e2 : mp'.baseCtx = mp.baseCtx := by rw [h1]
  unfold Multiplicator.enableModSwitching
  rw [e1, e2]
  refine (Res.Same.refl (R := fun a b => a = b) (fun _ => rfl) _).bind fun _ _ e => ?_
  subst e
  refine (Res.Same.refl (R := fun a b => a = b) (fun _ => rfl) _).bind fun d _ e => ?_
  subst e
  split
  · exact .err _
  · exact .ok ⟨by rw [h1], h2⟩

theorem parts_alike (h : Option.Rel (fun k k' : RelinearizationKey => k.ksk.Alike b n k'.ksk) mp.rk mp'.rk) (hc : c.WF b n) {p0 p1 p2 q0 q1 q2 : Poly .ntt} (h0 : Poly.Alike c p0 q0) (h1 : Poly.Alike c p1 q1)
    (h2 : Poly.Alike c p2 q2) : Res.Same (List.Forall₂ (Poly.Alike c)) (mp.parts p0 p1 p2) (mp'.parts q0 q1 q2) := by
  unfold parts
  generalize mp.rk = u at *
  generalize mp'.rk = w at *
  cases h with
  | none => exact .ok (.cons h0 (.cons h1 (.cons h2 .nil)))
  | some hk =>
    refine (Res.Same.lift (h2.toPowerBasis hc)).bind fun _ _ e => (hk.keySwitch e).bind fun _ _ e => ?_
    refine (switchPair_alike hc hk.wfKsk e h0.ctx.1 h1.ctx.1 h0.ctx.2 h1.ctx.2).bind fun _ _ e => ?_
    exact (Res.Same.lift (h0.add hc (by simp) e.1)).bind fun _ _ e1 => (Res.Same.lift (h1.add hc (by simp) e.2)).bind fun _ _ e2 => .ok (.cons e1 (.cons e2 .nil))

theorem multiply_alike (hw : ParWF b n par.toBfvParameters) (hm : Alike b n mp mp') (hf : mp.Follows par.degree σ par i l) (ha : AtLevel b n par i l) {j k : Nat} (hx : Ciphertext.Alike par j c x y)
    (hx' : Ciphertext.Alike par k c' x' y') : Res.Same (fun r r' => ∃ i c, Ciphertext.Alike par i c r r') (mp.multiply x x') (mp'.multiply y y') := by
  have e1 : mp'.par = mp.par := by rw [hm.eq]
  have e2 : mp'.level = mp.level := by rw [hm.eq]
  have e3 : mp'.modSwitch = mp.modSwitch := by rw [hm.eq]
  have e4 : mp'.product = mp.product := by rw [hm.eq]; rfl
  unfold multiply
  rw [e1, e2, e3, e4, hf.par_eq, hf.level, hx.validateFor, hx'.validateFor, hx.level_eq.1, hx.level_eq.2, hx'.level_eq.1, hx'.level_eq.2]
  refine (Res.Same.refl (R := fun a b => a = b) (fun _ => rfl) _).bind fun _ _ _ => ?_
  refine (Res.Same.refl (R := fun a b => a = b) (fun _ => rfl) _).bind fun _ _ _ => ?_
  by_cases hj : j = i
  · by_cases hk : k = i
    · subst hj; subst hk
      have c1 := hx.ctx_eq
      have c2 := hx'.ctx_eq
      rw [ha.contextAt, Res.ok_inj] at c1 c2
      subst c1; subst c2
      simp only [ne_eq, not_true_eq_false, if_false]
      have h1 := hx.parts
      have h2 := hx'.parts
      have h3 := hx.length
      have h4 := hx'.length
      rw [h3, h4]
      generalize x.c = xs at *
      generalize y.c = ys at *
      generalize x'.c = xs' at *
      generalize y'.c = ys' at *
      have hmain : ∀ {p0 p1 q0 q1 p0' p1' q0' q1' : Poly .ntt}, Poly.Alike l.ctx p0 p0' → Poly.Alike l.ctx p1 p1' → Poly.Alike l.ctx q0 q0' → Poly.Alike l.ctx q1 q1' →
          Res.Same (fun r r' => ∃ i c, Ciphertext.Alike par i c r r')
            (do
              let x ← mp.product p0 p1 q0 q1
              let ct : Ciphertext := { par := par, seed := none, c := ← mp.parts x.1 x.2.1 x.2.2, level := k }
              if mp.modSwitch then ct.switchDown else return ct)
            (do
              let x ← mp.product p0' p1' q0' q1'
              let ct : Ciphertext := { par := par, seed := none, c := ← mp'.parts x.1 x.2.1 x.2.2, level := k }
              if mp.modSwitch then ct.switchDown else return ct) := by
        intro p0 p1 q0 q1 p0' p1' q0' q1' u0 u1 w0 w1
        refine (product_alike hf ha u0 u1 w0 w1).bind fun _ _ e => (parts_alike hm.rk ha.wf e.1 e.2.1 e.2.2).bind fun ps qs e => ?_
        have hal : Ciphertext.Alike par k l.ctx { par := par, seed := none, c := ps, level := k } { par := par, seed := none, c := qs, level := k } := ⟨⟨rfl, rfl⟩, ⟨rfl, rfl⟩, rfl, ha.contextAt, e⟩
        cases mp.modSwitch with
        | false => exact .ok ⟨_, _, hal⟩
        | true => exact (hal.switchDown hw).imp fun _ _ h => by obtain ⟨c', h⟩ := h; exact ⟨_, c', h⟩
      match xs, ys, xs', ys', h1, h2 with
      | [], [], _, _, .nil, _ => exact .err _
      | [_], [_], _, _, .cons _ .nil, _ => exact .err _
      | _ :: _ :: _ :: _, _ :: _ :: _ :: _, _, _, .cons _ (.cons _ (.cons _ _)), _ => exact .err _
      | [p0, p1], [p0', p1'], [], [], .cons u0 (.cons u1 .nil), .nil => exact .err _
      | [p0, p1], [p0', p1'], [_], [_], .cons u0 (.cons u1 .nil), .cons _ .nil => exact .err _
      | [p0, p1], [p0', p1'], [q0, q1], [q0', q1'], .cons u0 (.cons u1 .nil), .cons w0 (.cons w1 .nil) => exact hmain u0 u1 w0 w1
      | [p0, p1], [p0', p1'], _ :: _ :: _ :: _, _ :: _ :: _ :: _, .cons u0 (.cons u1 .nil), .cons _ (.cons _ (.cons _ _)) => exact .err _
    · subst hj
      simp only [ne_eq, not_true_eq_false, if_false]
      rw [if_pos hk, if_pos hk]; exact .err _
  · rw [if_pos hj, if_pos hj]; exact .err _

end Multiplicator

/-! ## External products -/

theorem Ciphertext.Alike.mulRgsw (hw : ParWF b n par.toBfvParameters) (hx : Ciphertext.Alike par i c x y) {k k' : RgswCiphertext} (h0 : k.ksk0.Alike b n k'.ksk0) (h1 : k.ksk1.Alike b n k'.ksk1)
    (hl : par.contextAtLevel k.ksk0.ciphertextLevel = Res.ok k.ksk0.ctxKsk ∧ k.ksk1.ctxKsk = k.ksk0.ctxKsk) : Option.Rel (Ciphertext.Alike par i c) (x.mulRgsw k) (y.mulRgsw k') := by
  have hc := hx.wf hw
  unfold Ciphertext.mulRgsw
  rw [hx.par_eq.1, hx.par_eq.2, hx.level_eq.1, hx.level_eq.2, ← h0.par, ← h0.ciphertextLevel, ← h0.ctxKsk, ← h1.ctxKsk]
  refine rel_check _ fun _ => rel_check _ fun hi => ?_
  rw [← hi, hx.ctx_eq, Res.ok_inj] at hl
  have hp := hx.parts
  generalize x.c = xs at *
  generalize y.c = ys at *
  match xs, ys, hp with
  | [], [], _ => exact .none
  | [_], [_], _ => exact .none
  | _ :: _ :: _ :: _, _ :: _ :: _ :: _, _ => exact .none
  | [p0, p1], [q0, q1], .cons e0 (.cons e1 .nil) =>
    have hz : ∀ d : Context, d.WF b n → (Poly.zero .ntt d).Valid := fun d hd => (Poly.Alike.zero (r := .ntt) hd).valid hd |>.1
    refine rel_bind (e0.toPowerBasis hc) fun _ _ a0 => rel_bind (e1.toPowerBasis hc) fun _ _ a1 => ?_
    refine rel_bind (h0.keySwitchAssign a0 (hz _ h0.wfKsk) (hz _ h0.wfKsk) (hz _ h0.wfKsk) (hz _ h0.wfKsk)).unwrap fun _ _ b0 => ?_
    refine rel_bind (h1.keySwitchAssign a1 (hz _ h1.wfKsk) (hz _ h1.wfKsk) (hz _ h1.wfKsk) (hz _ h1.wfKsk)).unwrap fun _ _ b1 => ?_
    rw [hl.2] at b1
    rw [← hl.1] at b0 b1
    exact rel_bind (b0.1.add hc (by simp) b1.1) fun _ _ c0 => rel_bind (b0.2.add hc (by simp) b1.2) fun _ _ c1 => .some ⟨⟨rfl, rfl⟩, ⟨rfl, rfl⟩, rfl, hx.ctx_eq, .cons c0 (.cons c1 .nil)⟩

/-! ## Serialization -/

theorem Poly.Alike.toBytes (h : c.WF b n) {p q : Poly r} (hp : Poly.Alike c p q) : p.toBytes = q.toBytes := by
  have := h.neZero
  obtain ⟨f, v, v', rfl, rfl⟩ := hp
  obtain ⟨X, rfl, -⟩ := exists_ofInt (c := c) rfl f
  exact toBytes_portable (vt := v) (vt' := v') h h rfl rfl X

theorem Ciphertext.Alike.toMsg (hw : ParWF b n par.toBfvParameters) (hx : Ciphertext.Alike par i c x y) : x.toMsg = y.toMsg := by
  have hc := hx.wf hw
  have h := hx.parts
  unfold Ciphertext.toMsg
  rw [hx.seed_eq, hx.level_eq.1, hx.level_eq.2]
  rcases List.eq_nil_or_concat x.c with e | ⟨ps, p, e⟩
  · rw [e] at h
    rw [e, List.forall₂_nil_left_iff.1 h]
  · rcases List.eq_nil_or_concat y.c with e' | ⟨qs, q, e'⟩
    · rw [e'] at h
      rw [e', List.forall₂_nil_right_iff.1 h]
    · have hr : List.Forall₂ (Poly.Alike c) (p :: ps.reverse) (q :: qs.reverse) := by
        rw [← List.forall₂_reverse_iff, e, e'] at h
        simpa using h
      obtain ⟨h1, h2⟩ := List.forall₂_cons.1 hr
      rw [List.forall₂_reverse_iff] at h2
      rw [e, e', List.concat_eq_append, List.concat_eq_append, List.getLast?_concat, List.getLast?_concat]
      simp only [List.dropLast_concat]
      rw [Ciphertext.mapM_forall₂ (h2.imp fun _ _ e => e.toBytes hc), h1.toBytes hc]

theorem KeySwitchingKey.Alike.toMsg {k k' : KeySwitchingKey} (hk : k.Alike b n k') : k.toMsg = k'.toMsg := by
  unfold KeySwitchingKey.toMsg
  rw [hk.seed, Ciphertext.mapM_forall₂ (hk.c1.imp fun _ _ e => e.toBytes hk.wfKsk), Ciphertext.mapM_forall₂ (hk.c0.imp fun _ _ e => e.toBytes hk.wfKsk), hk.ciphertextLevel, hk.kskLevel, hk.logBase]

/-! ## Encryption -/

theorem Plaintext.Alike.encrypt_secret (hw : ParWF b n par.toBfvParameters) {p q : Plaintext} (hp : Plaintext.Alike par i c p q) (g : Prg) (sk : SecretKey) (seed : Seed) (rng : Nat → Nat) :
    sk.tryEncrypt g p seed rng = sk.tryEncrypt g q seed rng := by
  unfold SecretKey.tryEncrypt
  rw [hp.validateFor, hp.toPoly hw]

theorem PublicKey.tryEncrypt_alike (hw : ParWF b n par.toBfvParameters) {p q : Plaintext} (hp : Plaintext.Alike par i c p q) (hP : ∀ s, p.toPoly = some s → s.Valid ∧ s.ctx = c) {k k' : PublicKey} (hk : k.par = par)
    (hk' : k'.par = par) {j : Nat} (hc : Ciphertext.Alike par j c' k.c k'.c) {rngU rng1 rng2 : Nat → Nat} (hU : IsStream rngU) (h1 : IsStream rng1) (h2 : IsStream rng2) :
    k.tryEncrypt p rngU rng1 rng2 = k'.tryEncrypt q rngU rng1 rng2 := by
  apply Res.Same.eq
  unfold PublicKey.tryEncrypt
  rw [hk, hk', hp.validateFor, hc.validateFor, ← hp.level_eq, hc.level_eq.1, hc.level_eq.2, ← hp.toPoly hw, hp.level_some hw]
  refine (Res.Same.refl (R := fun a b => a = b) (fun _ => rfl) _).bind fun _ _ _ => ?_
  refine (Res.Same.refl (R := fun a b => a = b) (fun _ => rfl) _).bind fun _ _ _ => ?_
  rw [Res.lift_some, Res.ok_bind, Res.ok_bind]
  by_cases hl : i < j
  · rw [if_pos hl, if_pos hl]
    exact Res.Same.refl (fun _ => rfl) _
  · rw [if_neg hl, if_neg hl]
    refine (hc.switchLoop hw).bind fun t t' ⟨d, ht⟩ => ?_
    rw [show j + (i - j) = i by omega] at ht
    have hd : Res.ok c = Res.ok d := hp.ctx_eq.symm.trans ht.ctx_eq
    rw [Res.ok_inj] at hd
    subst hd
    obtain ⟨l, ha, rfl⟩ := AtLevel.ofContext hw hp.ctx_eq
    rw [ht.level_eq.1, ht.level_eq.2, hp.ctx_eq, Res.ok_bind, Res.ok_bind]
    have hs : ∀ {rng : Nat → Nat}, IsStream rng → ∃ u, smallNtt l.ctx par.variance rng = some (.ok u) ∧ Poly.Alike l.ctx u u := fun {rng} hr => by
      obtain ⟨e, -, he⟩ := small_encI hw.variance.1 hw.variance.2 hr par.degree
      exact ⟨_, (he ha.wf ha.deg).2.1, _, _, _, rfl, rfl⟩
    obtain ⟨u, eu, au⟩ := hs hU
    obtain ⟨w1, ew1, a1⟩ := hs h1
    obtain ⟨w2, ew2, a2⟩ := hs h2
    rw [eu, ew1, ew2, Res.math_ok, Res.math_ok, Res.math_ok, Res.ok_bind, Res.ok_bind, Res.ok_bind, Res.ok_bind, Res.ok_bind, Res.ok_bind]
    refine (Res.Same.lift (R := Poly.Alike l.ctx) ?_).bind fun m m' am => ?_
    · cases em : p.toPoly with
      | none => exact .none
      | some s =>
        obtain ⟨v1, v2⟩ := hP s em
        exact .some (.refl ha.wf v1 v2)
    have hget : ∀ k : Nat, Option.Rel (Poly.Alike l.ctx) t.c[k]? t'.c[k]? := by
      intro k
      have := ht.parts
      generalize t.c = ps at *
      generalize t'.c = qs at *
      clear ht
      induction this generalizing k with
      | nil => exact .none
      | cons e _ ih =>
        cases k with
        | zero => exact .some e
        | succ k => exact ih k
    refine (Res.Same.lift (hget 0)).bind fun _ _ g0 => (Res.Same.lift (au.mul ha.wf g0)).bind fun _ _ g0 => (Res.Same.lift (g0.add ha.wf (by simp) a1)).bind fun _ _ g0 => ?_
    refine (Res.Same.lift (g0.add ha.wf (by simp) am)).bind fun _ _ g0 => (Res.Same.lift (hget 1)).bind fun _ _ g1 => (Res.Same.lift (au.mul ha.wf g1)).bind fun _ _ g1 => ?_
    refine (Res.Same.lift (g1.add ha.wf (by simp) a2)).bind fun _ _ g1 => ?_
    rw [g0.allow_eq, g1.allow_eq]
    exact .ok rfl

end Fhe
