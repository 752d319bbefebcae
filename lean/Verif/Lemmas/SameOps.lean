import Verif.Lemmas.SameKeys
/-!
# Operations on ciphertexts that differ in timing flags only
-/
namespace Fhe
open Nega Poly

variable {b : Build} {n : Nat} {c c' : Context} {r : Rep} {par : Par} {i : Nat} {x x' y y' : Ciphertext}

namespace Ciphertext

theorem any_ctx {l : List (Poly r)} {d : Context} (h : ∀ p ∈ l, p.ctx = c) : (l.any fun p => decide (p.ctx ≠ d)) = (decide (l ≠ []) && decide (c ≠ d)) := by
  induction l with
  | nil => rfl
  | cons p l ih =>
    rw [List.any_cons, ih fun p hp => h p (List.mem_cons_of_mem _ hp), h p List.mem_cons_self]
    by_cases e : c = d <;> simp [e]

theorem Alike.any_ctx (h : Alike par i c x y) (d : Context) : (x.c.any fun p => decide (p.ctx ≠ d)) = y.c.any fun p => decide (p.ctx ≠ d) := by
  rw [Ciphertext.any_ctx h.ctxs.1, Ciphertext.any_ctx h.ctxs.2]
  congr 1
  simp only [ne_eq, h.nil_iff]

theorem Alike.validateContext (h : Alike par i c x y) (j : Nat) (d : Context) : x.validateContext j d = y.validateContext j d := by
  unfold Ciphertext.validateContext
  rw [h.length, h.level_eq.1, h.level_eq.2, h.any_ctx]

theorem Alike.validateFor (h : Alike par i c x y) (P : Par) : x.validateFor P = y.validateFor P := by
  unfold Ciphertext.validateFor
  rw [h.par_eq.1, h.par_eq.2, h.level_eq.1, h.level_eq.2]
  simp only [h.validateContext]

theorem Alike.validateForContext (h : Alike par i c x y) (P : Par) (j : Nat) (d : Context) : x.validateForContext P j d = y.validateForContext P j d := by
  unfold Ciphertext.validateForContext
  rw [h.par_eq.1, h.par_eq.2, h.validateContext]

/-! ## Switching -/

theorem Alike.wf (hw : ParWF b n par.toBfvParameters) (h : Alike par i c x y) : c.WF b n := by
  obtain ⟨l, ha, rfl⟩ := AtLevel.ofContext hw h.ctx_eq
  exact ha.wf

theorem Alike.valid (hw : ParWF b n par.toBfvParameters) (h : Alike par i c x y) : (∀ p ∈ x.c, p.Valid) ∧ ∀ p ∈ y.c, p.Valid := by
  have hc := h.wf hw
  have := h.parts
  clear h
  generalize x.c = a at *
  generalize y.c = d at *
  induction this with
  | nil => simp
  | cons h _ ih =>
    obtain ⟨h1, h2⟩ := h.valid hc
    simp only [List.mem_cons, forall_eq_or_imp]
    exact ⟨⟨h1, ih.1⟩, h2, ih.2⟩

theorem Alike.of_usable (hw : ParWF b n par.toBfvParameters) (hx : x.Usable par) : ∃ c, Alike par x.level c x x := by
  obtain ⟨l, ha⟩ := AtLevel.ofLt hw hx.level
  refine ⟨l.ctx, ⟨hx.par_eq, hx.par_eq⟩, ⟨rfl, rfl⟩, rfl, ha.contextAt, List.forall₂_same.2 fun p hp => ?_⟩
  obtain ⟨h1, h2⟩ := hx.valid p hp
  rw [ha.contextAt, Res.ok_inj] at h2
  exact .refl ha.wf h1 h2.symm

theorem Alike.usable (hw : ParWF b n par.toBfvParameters) (h : Alike par i c x y) (h2 : 2 ≤ x.c.length) : x.Usable par ∧ y.Usable par := by
  obtain ⟨l, ha, rfl⟩ := AtLevel.ofContext hw h.ctx_eq
  obtain ⟨v1, v2⟩ := h.valid hw
  exact ⟨⟨h.par_eq.1, by rw [h.level_eq.1]; exact ha.lt, h2, fun p hp => ⟨v1 p hp, by rw [h.level_eq.1, h.ctxs.1 p hp]; exact h.ctx_eq⟩⟩,
    ⟨h.par_eq.2, by rw [h.level_eq.2]; exact ha.lt, h.length ▸ h2, fun p hp => ⟨v2 p hp, by rw [h.level_eq.2, h.ctxs.2 p hp]; exact h.ctx_eq⟩⟩⟩

theorem next_level {l l' : ContextLevel} (ha : AtLevel b n par i l) (ha' : AtLevel b n par (i + 1) l') (h : l.ctx.next = some c) : c = l'.ctx := by
  rw [(switchOnce_eq ha ha' (vt := false) 0).1, Option.some_inj] at h
  exact h.symm

theorem switchPoly_alike (h : c.WF b n) {p q : Poly .ntt} (hp : Poly.Alike c p q) : Res.Same (fun p q => ∃ c', c'.WF b n ∧ c.next = some c' ∧ Poly.Alike c' p q) (switchPoly p) (switchPoly q) := by
  unfold switchPoly
  exact (Res.Same.lift (hp.toPowerBasis h)).bind fun _ _ h1 => (h1.switchDown h).bind fun _ _ ⟨c', h2, h3, h4⟩ => Res.Same.imp (.lift (h4.toNtt h2)) fun _ _ h5 => ⟨c', h2, h3, h5⟩

theorem Alike.switchDown (hw : ParWF b n par.toBfvParameters) (hx : Alike par i c x y) :
    Res.Same (fun p q => ∃ c', Alike par (i + 1) c' p q) x.switchDown y.switchDown := by
  unfold Ciphertext.switchDown
  rw [hx.par_eq.1, hx.par_eq.2, hx.level_eq.1, hx.level_eq.2, maxLevel_eq hw, Res.lift_some, Res.ok_bind, Res.ok_bind]
  obtain ⟨l, ha, rfl⟩ := AtLevel.ofContext hw hx.ctx_eq
  by_cases hi : i ≥ par.moduli.length - 1
  · rw [if_pos hi, if_pos hi]; exact .err _
  · rw [if_neg hi, if_neg hi]
    obtain ⟨l', ha'⟩ := AtLevel.ofLt hw (i := i + 1) (by omega)
    refine (Res.Same.mapM (S := Poly.Alike l'.ctx) (fun p q hp => ?_) hx.parts).bind fun ps qs hps => .ok ⟨l'.ctx, ⟨rfl, rfl⟩, ⟨rfl, rfl⟩, rfl, ha'.contextAt, hps⟩
    exact (switchPoly_alike ha.wf hp).imp fun p q ⟨c', _, h2, h3⟩ => next_level ha ha' h2 ▸ h3

theorem Alike.switchLoop (hw : ParWF b n par.toBfvParameters) : ∀ {k i : Nat} {c : Context} {x y : Ciphertext}, Alike par i c x y →
    Res.Same (fun p q => ∃ c', Alike par (i + k) c' p q) (x.switchLoop k) (y.switchLoop k)
  | 0, _, c, _, _, h => .ok ⟨c, h⟩
  | k + 1, i, _, x, y, h => by
    show Res.Same _ (x.switchDown >>= fun z => z.switchLoop k) (y.switchDown >>= fun z => z.switchLoop k)
    refine (h.switchDown hw).bind fun p q ⟨c', h'⟩ => ?_
    have := h'.switchLoop hw (k := k)
    rwa [show i + 1 + k = i + (k + 1) by omega] at this

theorem Alike.switchToLevel (hw : ParWF b n par.toBfvParameters) (h : Alike par i c x y) (target : Nat) :
    Res.Same (fun p q => ∃ c', Alike par target c' p q) (x.switchToLevel target) (y.switchToLevel target) := by
  unfold Ciphertext.switchToLevel
  rw [h.par_eq.1, h.par_eq.2, h.level_eq.1, h.level_eq.2, maxLevel_eq hw, Res.lift_some, Res.ok_bind, Res.ok_bind]
  by_cases h1 : target < i
  · rw [if_pos h1, if_pos h1]; exact .err _
  · rw [if_neg h1, if_neg h1]
    by_cases h2 : target > par.moduli.length - 1
    · rw [if_pos h2, if_pos h2]; exact .err _
    · rw [if_neg h2, if_neg h2]
      have := h.switchLoop hw (k := target - i)
      rwa [show i + (target - i) = target by omega] at this

end Ciphertext

open Ciphertext

/-! ## Relinearization -/

theorem RelinearizationKey.relinearizes_alike (hw : ParWF b n par.toBfvParameters) {k k' : RelinearizationKey} (hk : k.ksk.Alike b n k'.ksk) (hx : Ciphertext.Alike par i c x y) :
    Res.Same (Ciphertext.Alike par i c) (k.relinearizes x) (k'.relinearizes y) := by
  have hc := hx.wf hw
  unfold RelinearizationKey.relinearizes
  rw [← hk.par, hx.validateFor, hx.length, hx.level_eq.1, hx.level_eq.2, ← hk.ciphertextLevel]
  refine (Res.Same.refl (R := fun _ _ => True) (fun _ => trivial) _).bind fun _ _ _ => ?_
  have hpar := hx.parts
  have hlen : x.c.length = y.c.length := hx.length
  generalize hxs : x.c = xs at *
  generalize hys : y.c = ys at *
  match xs, ys, hpar with
  | [x0, x1, x2], [y0, y1, y2], .cons h0 (.cons h1 (.cons h2 .nil)) =>
    simp only []
    by_cases hl : i = k.ksk.ciphertextLevel
    · rw [if_neg (by simpa using hl), if_neg (by simpa using hl)]
      refine (Res.Same.lift (h2.toPowerBasis hc)).bind fun _ _ e => (hk.keySwitch e).bind fun _ _ e => (switchPair_alike hc hk.wfKsk e h0.ctx.1 h1.ctx.1 h0.ctx.2 h1.ctx.2).bind fun _ _ e => ?_
      exact (Res.Same.lift (h0.add hc (by simp) e.1)).bind fun _ _ e0 => (Res.Same.lift (h1.add hc (by simp) e.2)).bind fun _ _ e1 =>
        .ok ⟨hx.par_eq, ⟨rfl, rfl⟩, hx.seed_eq, hx.ctx_eq, .cons e0 (.cons e1 .nil)⟩
    · rw [if_pos hl, if_pos hl]; exact .err _
  | [], [], _ => exact .err _
  | [_], [_], _ => exact .err _
  | [_, _], [_, _], _ => exact .err _
  | _ :: _ :: _ :: _ :: _, _ :: _ :: _ :: _ :: _, _ => exact .err _

/-! ## Galois keys -/

structure GaloisKey.Alike (b : Build) (n : Nat) (par : Par) (k k' : GaloisKey) : Prop where
  element : k.element = k'.element
  ksk : k.ksk.Alike b n k'.ksk
  ctx : par.contextAtLevel k.ksk.ciphertextLevel = Res.ok k.ksk.ctxCiphertext
  new : SubstExponent.new k.ksk.ctxCiphertext k.element.exponent = some (.ok k.element)
  odd : k.element.exponent % 2 = 1

namespace GaloisKey
variable {k k' : GaloisKey}

theorem WellFormed.alike (hw : ParWF b n par.toBfvParameters) {g g' : Prg} (hk : k.WellFormed g par) (hk' : k'.WellFormed g' par) (hb : k.beq k' = true) : k.Alike b n par k' := by
  unfold beq at hb
  rw [Bool.and_eq_true, decide_eq_true_eq] at hb
  exact ⟨hb.1, hk.ksk.alike hw hk'.ksk hb.2, hk.ksk.ctx, hk.element, hk.range.1⟩

theorem validate_alike (hk : k.Alike b n par k') (hx : Ciphertext.Alike par i c x y) :
    Res.Same (fun p q => k.ksk.ciphertextLevel = i ∧ k.ksk.ctxCiphertext = c ∧ Poly.Alike c p.1 q.1 ∧ Poly.Alike c p.2 q.2) (k.validateCiphertext x) (k'.validateCiphertext y) := by
  unfold validateCiphertext
  rw [← hk.ksk.par, hx.validateFor, hx.length, hx.level_eq.1, hx.level_eq.2, ← hk.ksk.ciphertextLevel]
  refine (Res.Same.refl (R := fun _ _ => True) (fun _ => trivial) _).bind fun _ _ _ => ?_
  have hpar := hx.parts
  have hctx := hx.ctx_eq
  generalize x.c = xs at *
  generalize y.c = ys at *
  match xs, ys, hpar with
  | [x0, x1], [y0, y1], .cons h0 (.cons h1 .nil) =>
    simp only []
    by_cases hl : i = k.ksk.ciphertextLevel
    · rw [if_neg (by simpa using hl), if_neg (by simpa using hl)]
      rw [hl, hk.ctx, Res.ok_inj] at hctx
      exact .ok ⟨hl.symm, hctx, h0, h1⟩
    · rw [if_pos hl, if_pos hl]; exact .err _
  | [], [], _ => exact .err _
  | [_], [_], _ => exact .err _
  | _ :: _ :: _ :: _, _ :: _ :: _ :: _, _ => exact .err _

theorem Alike.relinearize (hw : ParWF b n par.toBfvParameters) (hk : k.Alike b n par k') (hx : Ciphertext.Alike par i c x y) :
    Res.Same (Ciphertext.Alike par i c) (k.relinearize x) (k'.relinearize y) := by
  have hc := hx.wf hw
  have hn : n ≤ 31 := by have := hw.le_16; omega
  have hnew := hk.new
  unfold GaloisKey.relinearize
  rw [← hk.element]
  refine (validate_alike hk hx).bind fun p q ⟨e1, e2, h0, h1⟩ => ?_
  rw [e2] at hnew
  refine (Res.Same.lift (h1.substitute hc hn hk.odd hnew)).bind fun _ _ e => (Res.Same.lift (e.toPowerBasis hc)).bind fun _ _ e => (hk.ksk.keySwitch e).bind fun _ _ e => ?_
  refine (switchPair_alike hc hk.ksk.wfKsk e h0.ctx.1 h1.ctx.1 h0.ctx.2 h1.ctx.2).bind fun _ _ e => (Res.Same.lift (h0.substitute hc hn hk.odd hnew)).bind fun _ _ e0 => ?_
  exact (Res.Same.lift (e.1.add hc (by simp) e0)).bind fun _ _ e0 => .ok ⟨hx.par_eq, ⟨e1, by rw [← hk.ksk.ciphertextLevel]; exact e1⟩, rfl, hx.ctx_eq, .cons e0 (.cons e.2 .nil)⟩

theorem Alike.relinearizeInto (hw : ParWF b n par.toBfvParameters) (hk : k.Alike b n par k') (hx : Ciphertext.Alike par i c x y) {o o' : Ciphertext} (ho : ∀ p ∈ o.c, p.Valid) (ho' : ∀ p ∈ o'.c, p.Valid) :
    Res.Same (Ciphertext.Alike par i c) (k.relinearizeInto x o) (k'.relinearizeInto y o') := by
  have hc := hx.wf hw
  have hn : n ≤ 31 := by have := hw.le_16; omega
  have hnew := hk.new
  unfold GaloisKey.relinearizeInto
  rw [← hk.element]
  refine (validate_alike hk hx).bind fun p q ⟨e1, e2, h0, h1⟩ => ?_
  rw [e2] at hnew
  obtain ⟨o1, o2⟩ := outParts_valid hc ho (x := p) h0.ctx.1 h1.ctx.1
  obtain ⟨o1', o2'⟩ := outParts_valid hc ho' (x := q) h0.ctx.2 h1.ctx.2
  refine (Res.Same.lift (h1.substitute hc hn hk.odd hnew)).bind fun _ _ e => (Res.Same.lift (e.toPowerBasis hc)).bind fun _ _ e => (hk.ksk.keySwitchAssign e o1 o2 o1' o2').bind fun _ _ e => ?_
  refine (switchPair_alike hc hk.ksk.wfKsk e h0.ctx.1 h1.ctx.1 h0.ctx.2 h1.ctx.2).bind fun _ _ e => (Res.Same.lift (h0.substitute hc hn hk.odd hnew)).bind fun _ _ e0 => ?_
  exact (Res.Same.lift (e.1.add hc (by simp) e0)).bind fun _ _ e0 => .ok ⟨hx.par_eq, ⟨e1, by rw [← hk.ksk.ciphertextLevel]; exact e1⟩, rfl, hx.ctx_eq, .cons e0 (.cons e.2 .nil)⟩

end GaloisKey

/-! ## Evaluation keys -/

theorem lookup_isSome_of_mem {α : Type} : ∀ {m : List (Nat × α)} {x : Nat}, x ∈ m.map Prod.fst → ∃ v, m.lookup x = some v
  | [], _, h => by simp at h
  | (a, v) :: m, x, h => by
    rw [List.lookup_cons]
    by_cases e : x = a
    · subst e; exact ⟨v, by simp⟩
    · rw [show (x == a) = false by simpa using e]
      simp only [List.map_cons, List.mem_cons, e, false_or] at h
      exact lookup_isSome_of_mem h

/-- Equal maps without repeated keys have equal values under every key. -/
theorem lookup_of_mapBeq {α : Type} {eq : α → α → Bool} {m m' : List (Nat × α)} (hm : (m.map Prod.fst).Nodup) (h : mapBeq eq m m' = true) (x : Nat) :
    Option.Rel (fun v v' => eq v v' = true) (m.lookup x) (m'.lookup x) := by
  unfold mapBeq at h
  rw [Bool.and_eq_true, decide_eq_true_eq, List.all_eq_true] at h
  obtain ⟨hl, ha⟩ := h
  cases hx : m.lookup x with
  | some v =>
    have := ha _ (mem_of_lookup hx)
    simp only [] at this
    cases hx' : m'.lookup x with
    | none => rw [hx'] at this; simp at this
    | some v' => rw [hx'] at this; exact .some this
  | none =>
    cases hx' : m'.lookup x with
    | none => exact .none
    | some v' =>
      exfalso
      have hsub : m.map Prod.fst ⊆ m'.map Prod.fst := by
        intro a h
        obtain ⟨⟨a, v⟩, h1, rfl⟩ := List.mem_map.1 h
        have := ha _ h1
        simp only [] at this
        cases e : m'.lookup a with
        | none => rw [e] at this; simp at this
        | some w => exact List.mem_map.2 ⟨_, mem_of_lookup e, rfl⟩
      have hperm := (hm.subperm hsub).perm_of_length_le (by simp [hl])
      have : x ∈ m.map Prod.fst := hperm.mem_iff.2 (List.mem_map.2 ⟨_, mem_of_lookup hx', rfl⟩)
      obtain ⟨v, e⟩ := lookup_isSome_of_mem this
      rw [hx] at e; simp at e

structure EvaluationKey.Alike (b : Build) (n : Nat) (par : Par) (k k' : EvaluationKey) : Prop where
  par_eq : k.par = par ∧ k'.par = par
  ciphertextLevel : k.ciphertextLevel = k'.ciphertextLevel
  keyLevel : k.keyLevel = k'.keyLevel
  gk : ∀ x, Option.Rel (GaloisKey.Alike b n par) (k.gk.lookup x) (k'.gk.lookup x)
  rot : k.rot = k'.rot
  monomials : k.monomials = k'.monomials

namespace EvaluationKey
variable {k k' : EvaluationKey}

theorem WellFormed.alike (hw : ParWF b n par.toBfvParameters) {g g' : Prg} (hk : k.WellFormed b g par) (hk' : k'.WellFormed b g' par) (hb : k.beq k' = true) : k.Alike b n par k' := by
  unfold beq at hb
  simp only [Bool.and_eq_true, decide_eq_true_eq] at hb
  obtain ⟨⟨⟨⟨⟨-, h1⟩, h2⟩, h3⟩, -⟩, -⟩ := hb
  obtain ⟨c, m1, m2⟩ := hk.monomials
  obtain ⟨c', m1', m2'⟩ := hk'.monomials
  have hr := hk.rot
  rw [hk'.rot, Option.some_inj] at hr
  rw [h1, m1', Res.ok_inj] at m1
  subst m1
  rw [m2', Res.ok_inj] at m2
  refine ⟨⟨hk.par_eq, hk'.par_eq⟩, h1, h2, fun x => ?_, hr.symm, m2.symm⟩
  have := lookup_of_mapBeq hk.nodup h3 x
  have e1 := hk.gk x
  have e2 := hk'.gk x
  generalize k.gk.lookup x = a at *
  generalize k'.gk.lookup x = d at *
  cases this with
  | none => exact .none
  | some h => exact .some ((e1 _ rfl).1.alike hw (e2 _ rfl).1 h)

theorem Alike.isSome (hk : k.Alike b n par k') (x : Nat) : (k.gk.lookup x).isSome = (k'.gk.lookup x).isSome := by
  have := hk.gk x
  generalize k.gk.lookup x = a at *
  generalize k'.gk.lookup x = d at *
  cases this <;> rfl

theorem Alike.getKey (hk : k.Alike b n par k') (x : Nat) : Res.Same (GaloisKey.Alike b n par) (k.getKey x) (k'.getKey x) := by
  unfold EvaluationKey.getKey
  have := hk.gk x
  generalize k.gk.lookup x = a at *
  generalize k'.gk.lookup x = d at *
  cases this with
  | none => exact .err _
  | some h => exact .ok h

theorem Alike.supports (hk : k.Alike b n par k') : k.supportsInnerSum = k'.supportsInnerSum ∧ k.supportsRowRotation = k'.supportsRowRotation ∧
    (∀ i, k.supportsColumnRotationBy i = k'.supportsColumnRotationBy i) ∧ ∀ level, k.supportsExpansion level = k'.supportsExpansion level := by
  refine ⟨?_, ?_, fun i => ?_, fun level => ?_⟩
  · unfold supportsInnerSum
    simp only [hk.par_eq.1, hk.par_eq.2, hk.rot, hk.isSome]
  · unfold supportsRowRotation
    simp only [hk.par_eq.1, hk.par_eq.2, hk.isSome]
  · unfold supportsColumnRotationBy
    simp only [hk.rot, hk.isSome]
  · unfold supportsExpansion
    simp only [hk.par_eq.1, hk.par_eq.2, hk.keyLevel, hk.isSome]

theorem Alike.validate (hk : k.Alike b n par k') (hx : Ciphertext.Alike par i c x y) : k.validateCiphertext x = k'.validateCiphertext y := by
  unfold EvaluationKey.validateCiphertext
  rw [hk.par_eq.1, hk.par_eq.2, hx.validateFor, hx.length, hx.level_eq.1, hx.level_eq.2, hk.ciphertextLevel]

theorem Alike.rotatesRows (hw : ParWF b n par.toBfvParameters) (hk : k.Alike b n par k') (hx : Ciphertext.Alike par i c x y) :
    Res.Same (Ciphertext.Alike par i c) (k.rotatesRows x) (k'.rotatesRows y) := by
  unfold EvaluationKey.rotatesRows
  rw [hk.validate hx, hk.supports.2.1, hk.par_eq.1, hk.par_eq.2]
  refine (Res.Same.refl (R := fun _ _ => True) (fun _ => trivial) _).bind fun _ _ _ => ?_
  split
  · exact .err _
  · exact (hk.getKey _).bind fun _ _ hg => hg.relinearizeInto hw hx (by simp [Ciphertext.zero]) (by simp [Ciphertext.zero])

theorem Alike.rotatesColumnsBy (hw : ParWF b n par.toBfvParameters) (hk : k.Alike b n par k') (hx : Ciphertext.Alike par i c x y) (j : Nat) :
    Res.Same (Ciphertext.Alike par i c) (k.rotatesColumnsBy x j) (k'.rotatesColumnsBy y j) := by
  unfold EvaluationKey.rotatesColumnsBy
  rw [hk.validate hx, hk.supports.2.2.1, hk.par_eq.1, hk.par_eq.2, hk.rot]
  refine (Res.Same.refl (R := fun _ _ => True) (fun _ => trivial) _).bind fun _ _ _ => ?_
  split
  · exact .err _
  · cases k'.rot.lookup j with
    | none => exact (Res.Same.refl (R := fun a b => a = b) (fun _ => rfl) _).bind fun _ _ e => by subst e; exact .err _
    | some e => exact (hk.getKey _).bind fun _ _ hg => hg.relinearizeInto hw hx (by simp [Ciphertext.zero]) (by simp [Ciphertext.zero])

theorem Alike.innerLoop (hw : ParWF b n par.toBfvParameters) (hk : k.Alike b n par k') : ∀ {is : List Nat} {x y t t' : Ciphertext}, Ciphertext.Alike par i c x y → (∀ p ∈ t.c, p.Valid) → (∀ p ∈ t'.c, p.Valid) →
    Res.Same (fun (u w : Ciphertext × Ciphertext) => Ciphertext.Alike par i c u.1 w.1 ∧ (∀ p ∈ u.2.c, p.Valid) ∧ ∀ p ∈ w.2.c, p.Valid) (k.innerLoop is x t) (k'.innerLoop is y t')
  | [], _, _, _, _, hx, ht, ht' => .ok ⟨hx, ht, ht'⟩
  | j :: is, x, y, t, t', hx, ht, ht' => by
    unfold EvaluationKey.innerLoop
    rw [hk.rot]
    cases k'.rot.lookup j with
    | none => exact .err _
    | some e =>
      refine (hk.getKey _).bind fun _ _ hg => (hg.relinearizeInto hw hx ht ht').bind fun _ _ h1 => (Res.Same.lift (hx.add (hx.wf hw) h1)).bind fun _ _ h2 => ?_
      exact Alike.innerLoop hw hk h2 (h1.valid hw).1 (h1.valid hw).2

theorem Alike.computesInnerSum (hw : ParWF b n par.toBfvParameters) (hk : k.Alike b n par k') (hx : Ciphertext.Alike par i c x y) :
    Res.Same (Ciphertext.Alike par i c) (k.computesInnerSum x) (k'.computesInnerSum y) := by
  unfold EvaluationKey.computesInnerSum
  rw [hk.validate hx, hk.supports.1, hk.par_eq.1, hk.par_eq.2, hx.par_eq.1, hx.par_eq.2]
  refine (Res.Same.refl (R := fun _ _ => True) (fun _ => trivial) _).bind fun _ _ _ => ?_
  refine (Res.Same.refl (R := fun a b => a = b) (fun _ => rfl) _).bind fun s _ e => ?_
  subst e
  split
  · exact .err _
  · refine (hk.innerLoop hw hx (by simp [Ciphertext.zero]) (by simp [Ciphertext.zero])).bind fun p q ⟨h1, h2, h3⟩ => (hk.getKey _).bind fun _ _ hg => ?_
    exact (hg.relinearizeInto hw h1 h2 h3).bind fun _ _ h4 => .lift (h1.add (h1.wf hw) h4)

end EvaluationKey
end Fhe
