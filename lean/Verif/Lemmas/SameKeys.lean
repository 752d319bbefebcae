import Verif.Lemmas.Same
/-!
# Keys and ciphertexts that differ in timing flags only
-/
namespace Fhe
open Nega Poly

variable {b : Build} {n : Nat} {c c' : Context} {r : Rep} {par : Par} {i : Nat}

/-! ## Key switching -/

/-- Keys that differ in timing flags only. -/
structure KeySwitchingKey.Alike (b : Build) (n : Nat) (k k' : KeySwitchingKey) : Prop where
  par : k.par = k'.par
  seed : k.seed = k'.seed
  c0 : List.Forall₂ (Poly.Alike k.ctxKsk) k.c0 k'.c0
  c1 : List.Forall₂ (Poly.Alike k.ctxKsk) k.c1 k'.c1
  ciphertextLevel : k.ciphertextLevel = k'.ciphertextLevel
  ctxCiphertext : k.ctxCiphertext = k'.ctxCiphertext
  kskLevel : k.kskLevel = k'.kskLevel
  ctxKsk : k.ctxKsk = k'.ctxKsk
  logBase : k.logBase = k'.logBase
  wf : k.ctxCiphertext.WF b n
  wfKsk : k.ctxKsk.WF b n
  base : k.logBase = 0 ∨ ∃ q, k.ctxCiphertext.moduli = [q]

theorem forall2_of_beq (h : c.WF b n) : ∀ {ps qs : List (Poly r)}, (∀ p ∈ ps, p.Valid ∧ p.ctx = c) → ps.length = qs.length → ((ps.zip qs).all fun x => x.1.beq x.2) = true →
    List.Forall₂ (Poly.Alike c) ps qs
  | [], [], _, _, _ => .nil
  | [], _ :: _, _, hl, _ => by simp at hl
  | _ :: _, [], _, hl, _ => by simp at hl
  | p :: ps, q :: qs, hv, hl, hb => by
    rw [List.zip_cons_cons, List.all_cons, Bool.and_eq_true] at hb
    exact .cons (.of_beq h (hv p (by simp)).1 (hv p (by simp)).2 hb.1) (forall2_of_beq h (fun x hx => hv x (by simp [hx])) (by simpa using hl) hb.2)

theorem beq_of_forall2 : ∀ {ps qs : List (Poly r)}, List.Forall₂ (Poly.Alike c) ps qs → ps.length = qs.length ∧ ((ps.zip qs).all fun x => x.1.beq x.2) = true
  | _, _, .nil => ⟨rfl, rfl⟩
  | _, _, .cons h ht => by
    obtain ⟨h1, h2⟩ := beq_of_forall2 ht
    rw [List.zip_cons_cons, List.all_cons, h2, h.beq]
    exact ⟨by simp [h1], rfl⟩

theorem KeySwitchingKey.WellFormed.alike (hw : ParWF b n par.toBfvParameters) {g g' : Prg} {k k' : KeySwitchingKey} (hk : k.WellFormed g par) (hk' : k'.WellFormed g' par) (hb : k.beq k' = true) :
    k.Alike b n k' := by
  unfold KeySwitchingKey.beq at hb
  simp only [Bool.and_eq_true, decide_eq_true_eq] at hb
  obtain ⟨⟨⟨⟨⟨⟨⟨⟨⟨⟨h1, h2⟩, h3⟩, h4⟩, h5⟩, h6⟩, h7⟩, h8⟩, h9⟩, h10⟩, h11⟩ := hb
  obtain ⟨l, hl, hc⟩ := ParWF.contextAtLevel_iff.1 hk.ctx
  obtain ⟨l', hl', hc'⟩ := ParWF.contextAtLevel_iff.1 hk.ctxKsk
  have ha := AtLevel.ofGet hw hl
  have ha' := AtLevel.ofGet hw hl'
  have hwf : k.ctxKsk.WF b n := by rw [← hc']; exact ha'.wf
  refine ⟨by rw [hk.par_eq, hk'.par_eq], h2, forall2_of_beq hwf (fun p hp => hk.valid p (List.mem_append_left _ hp)) h3 h4,
    forall2_of_beq hwf (fun p hp => hk.valid p (List.mem_append_right _ hp)) h5 h6, h7, h8, h9, h10, h11, by rw [← hc]; exact ha.wf, hwf, ?_⟩
  rcases hk.count with ⟨h0, -⟩ | ⟨-, q, h1, -⟩
  · exact .inl h0
  · exact .inr ⟨q, h1⟩

namespace KeySwitchingKey

theorem accumulate_alike (h : c.WF b n) : ∀ {ds : List (List Nat)} {c0 c0' c1 c1' : List (Poly .nttShoup)}, List.Forall₂ (Poly.Alike c) c0 c0' → List.Forall₂ (Poly.Alike c) c1 c1' →
    (∀ d ∈ ds, d.length = c.degree ∧ ∀ x ∈ d, x < 2 ^ 64) → ∀ {a0 a0' a1 a1' : Poly .ntt}, Poly.Alike c a0 a0' → Poly.Alike c a1 a1' →
    Option.Rel (fun x y => Poly.Alike c x.1 y.1 ∧ Poly.Alike c x.2 y.2) (accumulate c ds c0 c1 a0 a1) (accumulate c ds c0' c1' a0' a1')
  | [], _, _, _, _, _, _, _, _, _, _, _, h0, h1 => by unfold accumulate; exact .some ⟨h0, h1⟩
  | _ :: _, _, _, _, _, .nil, _, _, _, _, _, _, h0, h1 => by unfold accumulate; exact .some ⟨h0, h1⟩
  | _ :: _, _, _, _, _, .cons _ _, .nil, _, _, _, _, _, h0, h1 => by unfold accumulate; exact .some ⟨h0, h1⟩
  | d :: ds, _, _, _, _, .cons hA hA', .cons hB hB', hd, _, _, _, _, h0, h1 => by
    obtain ⟨p, e1, e2⟩ := constant_mul h rfl (hd d (by simp)).1 (hd d (by simp)).2
    have hmul : ∀ {x y : Poly .nttShoup}, Poly.Alike c x y → Option.Rel (Poly.Alike c) (p.mulAssignShoup x) (p.mulAssignShoup y) := by
      rintro _ _ ⟨f, v, v', rfl, rfl⟩
      obtain ⟨A, hA, -⟩ := exists_encI h rfl (p := enc c .nttShoup v f) rfl (valid_enc h f)
      have hA1 : enc c .nttShoup v f = encI c .nttShoup v A := hA
      have hA2 : enc c .nttShoup v' f = encI c .nttShoup v' A := congrArg (fun x : Poly .nttShoup => ({ x with vt := v' } : Poly .nttShoup)) hA1
      rw [hA1, hA2, e2, e2]
      exact .some ⟨_, _, _, rfl, rfl⟩
    unfold accumulate
    rw [e1]
    simp only [Option.bind_eq_bind, Option.bind_some]
    simp only [← Option.bind_eq_bind]
    refine rel_bind (hmul hA) fun _ _ g1 => ?_
    refine rel_bind (h0.add h (by simp) g1) fun _ _ g2 => ?_
    refine rel_bind (hmul hB) fun _ _ g3 => ?_
    refine rel_bind (h1.add h (by simp) g3) fun _ _ g4 => ?_
    exact accumulate_alike h hA' hB' (fun d hd' => hd d (List.mem_cons_of_mem _ hd')) g2 g4

variable {k k' : KeySwitchingKey}

theorem configure_alike {p q : Poly .powerBasis} {z z' : Poly .ntt} (hz : Poly.Alike c z z') : Poly.Alike c (k.configure p z) (k'.configure q z') := by
  obtain ⟨f, v, v', rfl, rfl⟩ := hz
  unfold configure
  split <;> split <;> exact ⟨f, _, _, rfl, rfl⟩

theorem rows_shape (h : c.WF b n) {p q : Poly .powerBasis} (hp : Poly.Alike c p q) : ∀ d ∈ p.coeffs, d.length = 2 ^ n ∧ ∀ x ∈ d, x < 2 ^ 64 := by
  obtain ⟨f, v, v', rfl, rfl⟩ := hp
  intro d hd
  rw [enc_pb_coeffs h] at hd
  obtain ⟨q, hq, rfl⟩ := List.mem_map.1 hd
  have hr := h.supported.range q hq
  exact ⟨by rw [length_pbRow, h.level.degree], fun x hx => (pbRow_lt (by omega) _ x hx).trans (hr.2.trans (by norm_num))⟩

theorem Alike.decomposition (hk : k.Alike b n k') {p q : Poly .powerBasis} (hp : Poly.Alike c p q) (hbase : k.logBase ≠ 0) :
    Res.Same (fun x y => Poly.Alike k.ctxKsk x.1 y.1 ∧ Poly.Alike k.ctxKsk x.2 y.2) (k.keySwitchDecomposition p) (k'.keySwitchDecomposition q) := by
  unfold keySwitchDecomposition
  rw [hp.ctx.1, hp.ctx.2, ← hk.ctxCiphertext, ← hk.logBase, ← hk.ctxKsk, hp.coeffs]
  split
  · exact .err _
  rename_i hc
  rw [not_not] at hc
  subst hc
  refine (Res.Same.refl (R := fun a b => a = b) (fun _ => rfl) _).bind fun m _ e => ?_
  subst e
  refine (Res.Same.refl (R := fun a b => a = b) (fun _ => rfl) _).bind fun log _ e => ?_
  subst e
  by_cases h64 : k.logBase < 64
  · refine (Res.Same.refl (R := fun a b => a = b) (fun _ => rfl) _).bind fun _ _ _ => ?_
    refine (Res.Same.refl (R := fun a b => a = b) (fun _ => rfl) _).bind fun count _ e => ?_
    subst e
    refine .lift (accumulate_alike hk.wfKsk hk.c0 hk.c1 (fun d hd => ?_) (configure_alike (.zero hk.wfKsk)) (configure_alike (.zero hk.wfKsk)))
    obtain ⟨h1, h2⟩ := digits_shape _ _ _ d hd
    refine ⟨?_, fun x hx => (h2 x hx).trans (Nat.pow_lt_pow_right (by norm_num) h64)⟩
    rcases hk.base with h0 | ⟨m, hm⟩
    · exact absurd h0 hbase
    · have hs := rows_shape hk.wf hp
      obtain ⟨f, v, v', rfl, rfl⟩ := hp
      rw [h1, enc_pb_coeffs hk.wf, hm, List.map_singleton, List.flatten_singleton]
      rw [enc_pb_coeffs hk.wf, hm, List.map_singleton] at hs
      rw [(hs _ List.mem_cons_self).1, hk.wfKsk.level.degree]
  · unfold pow64
    rw [show check (k.logBase < 64) = none from if_neg h64]
    exact .panic

theorem Alike.keySwitch (hk : k.Alike b n k') {p q : Poly .powerBasis} (hp : Poly.Alike c p q) :
    Res.Same (fun x y => Poly.Alike k.ctxKsk x.1 y.1 ∧ Poly.Alike k.ctxKsk x.2 y.2) (k.keySwitch p) (k'.keySwitch q) := by
  by_cases hb : k.logBase = 0
  · unfold KeySwitchingKey.keySwitch
    rw [hp.ctx.1, hp.ctx.2, ← hk.ctxCiphertext, ← hk.logBase, ← hk.ctxKsk, ← hp.coeffs]
    have hb' : ¬k.logBase ≠ 0 := by simpa using hb
    rw [if_neg hb', if_neg hb']
    split
    · exact .err _
    rename_i hc
    rw [not_not] at hc
    subst hc
    refine .lift (accumulate_alike hk.wfKsk hk.c0 hk.c1 (fun d hd => ?_) (configure_alike (.zero hk.wfKsk)) (configure_alike (.zero hk.wfKsk)))
    rw [hk.wfKsk.level.degree]
    exact rows_shape hk.wf hp d hd
  · unfold KeySwitchingKey.keySwitch
    rw [← hk.logBase, if_pos hb, if_pos hb]
    exact hk.decomposition hp hb

theorem Alike.keySwitchAssign (hk : k.Alike b n k') {p q : Poly .powerBasis} (hp : Poly.Alike c p q) {o0 o1 o0' o1' : Poly .ntt} (h0 : o0.Valid) (h1 : o1.Valid) (h0' : o0'.Valid) (h1' : o1'.Valid) :
    Res.Same (fun x y => Poly.Alike k.ctxKsk x.1 y.1 ∧ Poly.Alike k.ctxKsk x.2 y.2) (k.keySwitchAssign p o0 o1) (k'.keySwitchAssign q o0' o1') := by
  have := hk.keySwitch hp
  unfold KeySwitchingKey.keySwitchAssign
  unfold KeySwitchingKey.keySwitch at this
  have hw' : k'.ctxKsk.WF b n := by rw [← hk.ctxKsk]; exact hk.wfKsk
  rw [configure_reset hk.wfKsk p h0, configure_reset hk.wfKsk p h1, configure_reset hw' q h0', configure_reset hw' q h1']
  exact this

end KeySwitchingKey

theorem switchPair_alike (h : c.WF b n) (h' : c'.WF b n) {a a' : Poly .ntt × Poly .ntt} (ha : Poly.Alike c' a.1 a'.1 ∧ Poly.Alike c' a.2 a'.2) {x0 x1 x0' x1' : Poly .ntt} (h0 : x0.ctx = c) (h1 : x1.ctx = c)
    (h0' : x0'.ctx = c) (h1' : x1'.ctx = c) : Res.Same (fun x y => Poly.Alike c x.1 y.1 ∧ Poly.Alike c x.2 y.2) (switchPair a x0 x1) (switchPair a' x0' x1') := by
  unfold switchPair
  rw [h0, h1, h0', h1', ha.1.ctx.1, ha.1.ctx.2]
  split
  · exact (ha.1.switchDownNtt h' c).bind fun _ _ g1 => (ha.2.switchDownNtt h' c).bind fun _ _ g2 => .ok ⟨g1, g2⟩
  · rename_i hc
    rw [not_not] at hc
    subst hc
    exact .ok ha

/-! ## Ciphertexts -/

/-- Ciphertexts of the same parameters and of one level that differ in timing flags only. -/
structure Ciphertext.Alike (par : Par) (i : Nat) (c : Context) (x y : Ciphertext) : Prop where
  par_eq : x.par = par ∧ y.par = par
  level_eq : x.level = i ∧ y.level = i
  seed_eq : x.seed = y.seed
  ctx_eq : par.contextAtLevel i = Res.ok c
  parts : List.Forall₂ (Poly.Alike c) x.c y.c

namespace Ciphertext
variable {x x' y y' : Ciphertext}

theorem Usable.alike (hw : ParWF b n par.toBfvParameters) (hx : x.Usable par) (hy : y.Usable par) (hb : x.beq y = true) : ∃ c, c.WF b n ∧ Alike par x.level c x y := by
  obtain ⟨l, ha⟩ := AtLevel.ofLt hw hx.level
  unfold Ciphertext.beq at hb
  simp only [Bool.and_eq_true, decide_eq_true_eq] at hb
  obtain ⟨⟨⟨⟨-, h2⟩, h3⟩, h4⟩, h5⟩ := hb
  refine ⟨l.ctx, ha.wf, ⟨hx.par_eq, hy.par_eq⟩, ⟨rfl, h5.symm⟩, h2, ha.contextAt, forall2_of_beq ha.wf (fun p hp => ?_) h3 h4⟩
  obtain ⟨h6, h7⟩ := hx.valid p hp
  refine ⟨h6, ?_⟩
  rw [ha.contextAt, Res.ok_inj] at h7
  exact h7.symm

theorem Alike.beq (h : Alike par i c x y) : x.beq y = true := by
  unfold Ciphertext.beq
  obtain ⟨h1, h2⟩ := beq_of_forall2 h.parts
  rw [h.par_eq.1, h.par_eq.2, h.level_eq.1, h.level_eq.2, h.seed_eq, h1, h2]
  simp

theorem Alike.length (h : Alike par i c x y) : x.c.length = y.c.length := h.parts.length_eq

theorem Alike.nil_iff (h : Alike par i c x y) : x.c = [] ↔ y.c = [] := by
  rw [← List.length_eq_zero_iff, ← List.length_eq_zero_iff, h.length]

theorem Alike.ctxs (h : Alike par i c x y) : (∀ p ∈ x.c, p.ctx = c) ∧ ∀ p ∈ y.c, p.ctx = c := by
  have := h.parts
  clear h
  generalize x.c = a at *
  generalize y.c = d at *
  induction this with
  | nil => simp
  | cons h _ ih =>
    constructor
    · intro p hp
      rcases List.mem_cons.1 hp with rfl | hp
      · exact h.ctx.1
      · exact ih.1 p hp
    · intro p hp
      rcases List.mem_cons.1 hp with rfl | hp
      · exact h.ctx.2
      · exact ih.2 p hp

theorem forall2_zip {α β γ δ : Type} {R : α → β → Prop} {S : γ → δ → Prop} : ∀ {l : List α} {l' : List β} {m : List γ} {m' : List δ}, List.Forall₂ R l l' → List.Forall₂ S m m' →
    List.Forall₂ (fun x y => R x.1 y.1 ∧ S x.2 y.2) (l.zip m) (l'.zip m')
  | _, _, _, _, .nil, _ => .nil
  | _, _, _, _, .cons _ _, .nil => .nil
  | _, _, _, _, .cons h ht, .cons g gt => .cons ⟨h, g⟩ (forall2_zip ht gt)

theorem Alike.neg (h : c.WF b n) (hx : Alike par i c x y) : Option.Rel (Alike par i c) x.neg y.neg := by
  unfold Ciphertext.neg
  exact rel_bind (rel_mapM (fun _ _ hp => hp.neg h (by simp)) hx.parts) fun _ _ g => .some ⟨hx.par_eq, hx.level_eq, rfl, hx.ctx_eq, g⟩

theorem Alike.add (h : c.WF b n) (hx : Alike par i c x y) (hx' : Alike par i c x' y') : Option.Rel (Alike par i c) (x.add x') (y.add y') := by
  unfold Ciphertext.add
  rw [hx.par_eq.1, hx.par_eq.2, hx'.par_eq.1, hx'.par_eq.2, ptrEq_self, hx.level_eq.1, hx.level_eq.2, hx'.level_eq.1, hx'.level_eq.2, hx.length, hx'.length]
  refine rel_check _ fun _ => ?_
  by_cases h1 : x.c = []
  · rw [if_pos h1, if_pos (hx.nil_iff.1 h1)]; exact .some hx'
  rw [if_neg h1, if_neg fun e => h1 (hx.nil_iff.2 e)]
  by_cases h2 : x'.c = []
  · rw [if_pos h2, if_pos (hx'.nil_iff.1 h2)]; exact .some hx
  rw [if_neg h2, if_neg fun e => h2 (hx'.nil_iff.2 e)]
  refine rel_check _ fun _ => rel_check _ fun _ => ?_
  exact rel_bind (rel_mapM (fun _ _ hp => hp.1.add h (by simp) hp.2) (forall2_zip hx.parts hx'.parts)) fun _ _ g => .some ⟨⟨rfl, rfl⟩, ⟨rfl, rfl⟩, rfl, hx.ctx_eq, g⟩

theorem Alike.sub (h : c.WF b n) (hx : Alike par i c x y) (hx' : Alike par i c x' y') : Option.Rel (Alike par i c) (x.sub x') (y.sub y') := by
  unfold Ciphertext.sub
  rw [hx.par_eq.1, hx.par_eq.2, hx'.par_eq.1, hx'.par_eq.2, ptrEq_self, hx.level_eq.1, hx.level_eq.2, hx'.level_eq.1, hx'.level_eq.2, hx.length, hx'.length]
  refine rel_check _ fun _ => ?_
  by_cases h1 : x.c = []
  · rw [if_pos h1, if_pos (hx.nil_iff.1 h1)]; exact hx'.neg h
  rw [if_neg h1, if_neg fun e => h1 (hx.nil_iff.2 e)]
  by_cases h2 : x'.c = []
  · rw [if_pos h2, if_pos (hx'.nil_iff.1 h2)]; exact .some hx
  rw [if_neg h2, if_neg fun e => h2 (hx'.nil_iff.2 e)]
  refine rel_check _ fun _ => rel_check _ fun _ => ?_
  exact rel_bind (rel_mapM (fun _ _ hp => hp.1.sub h (by simp) hp.2) (forall2_zip hx.parts hx'.parts)) fun _ _ g => .some ⟨⟨rfl, rfl⟩, ⟨rfl, rfl⟩, rfl, hx.ctx_eq, g⟩

end Ciphertext
end Fhe
