import Verif.Lemmas.RqParse
import Verif.Lemmas.BfvEvalBuild
import Verif.Lemmas.BfvRgsw
import Verif.Lemmas.BfvExample
import Verif.Spec.BfvSer
/-! Serialization of keys, and arbitrary messages. -/
namespace Fhe
open Nega Poly Ciphertext

variable {b : Build} {n : Nat} {par : Par} {g : Prg}

/-- A list of messages is read, or an error is returned. -/
theorem fromBytes_list_total {c : Context} (h : c.WF b n) {r : Rep} {ms : List (List Nat)} (hm : ∀ x ∈ ms, IsBytes x) :
    (∃ e, (ms.mapM fun x => math (Poly.fromBytes r x c)) = Res.err e) ∨ ∃ ps : List (Poly r), (ms.mapM fun x => math (Poly.fromBytes r x c)) = Res.ok ps ∧ ps.length = ms.length ∧
      ∀ p ∈ ps, p.ctx = c ∧ (r ≠ .powerBasis → p.Valid) := by
  induction ms with
  | nil => exact .inr ⟨[], by rw [List.mapM_nil, Res.pure_eq], rfl, by simp⟩
  | cons m ms ih =>
    have h0 := hm m (by simp)
    rw [List.mapM_cons]
    rcases Poly.fromBytes_total h h0 r with ⟨e, he⟩ | ⟨p, hp, hc, -, -, hv⟩
    · rw [he, Res.math_err, Res.err_bind]; exact .inl ⟨_, rfl⟩
    · rw [hp, Res.math_ok, Res.ok_bind]
      rcases ih fun x hx => hm x (by simp [hx]) with ⟨e, he⟩ | ⟨ps, hps, hl, hall⟩
      · rw [he, Res.err_bind]; exact .inl ⟨_, rfl⟩
      · rw [hps, Res.ok_bind, Res.pure_eq]
        refine .inr ⟨_, rfl, by simp [hl], fun q hq => ?_⟩
        rcases List.mem_cons.1 hq with rfl | hq
        · exact ⟨hc, hv⟩
        · exact hall q hq

theorem Poly.Valid.allowVt {r : Rep} {p : Poly r} (h : p.Valid) : p.allowVt.Valid := ⟨h.notLazy, h.rows, h.columns, h.reduced, h.shoup⟩

/-- A context of the parameters is that of a level. -/
theorem AtLevel.ofContext (hw : ParWF b n par.toBfvParameters) {i : Nat} {c : Context} (h : par.contextAtLevel i = Res.ok c) : ∃ l, AtLevel b n par i l ∧ l.ctx = c := by
  obtain ⟨l, hl, rfl⟩ := ParWF.contextAtLevel_iff.1 h
  exact ⟨l, AtLevel.ofGet hw hl, rfl⟩

theorem contextAtLevel_cases (hw : ParWF b n par.toBfvParameters) (i : Nat) : (∃ l, AtLevel b n par i l) ∨ (par.moduli.length ≤ i ∧ ∃ e, par.contextAtLevel i = Res.err e) := by
  by_cases h : i < par.moduli.length
  · exact .inl (AtLevel.ofLt hw h)
  · exact .inr ⟨by omega, contextAtLevel_err hw (by omega)⟩

theorem maxLevel_eq (hw : ParWF b n par.toBfvParameters) : par.maxLevel = some (par.moduli.length - 1) := by
  have := List.length_pos_of_ne_nil hw.ne_nil
  unfold BfvParameters.maxLevel
  rw [hw.length, subU_eq (by omega)]

theorem Prg.poly_valid (hg : g.OK) {c : Context} (h : c.WF b n) (r : Rep) (seed : Seed) : ∃ p, g.poly r c seed = some p ∧ p.ctx = c ∧ p.Valid := by
  obtain ⟨A, hA⟩ := Prg.poly_encI hg h rfl r seed
  exact ⟨_, hA, rfl, valid_enc h _⟩

namespace Ciphertext

/-- Reading any message never panics, and what is accepted is well formed. -/
theorem fromMsg_total (hw : ParWF b n par.toBfvParameters) (hg : g.OK) {m : CiphertextMsg} (hm : m.OK) :
    (∃ e, fromMsg g m par = Res.err e) ∨ ∃ ct, fromMsg g m par = Res.ok ct ∧ ct.WellFormed g par := by
  unfold fromMsg
  by_cases hc : m.c = [] ∨ (m.c.length = 1 ∧ m.seed = [])
  · rw [if_pos hc]; exact .inl ⟨_, rfl⟩
  rw [if_neg hc, maxLevel_eq hw, Res.lift_some, Res.ok_bind]
  by_cases hl : m.level > par.moduli.length - 1
  · rw [if_pos hl]; exact .inl ⟨_, rfl⟩
  have hpos := List.length_pos_of_ne_nil hw.ne_nil
  obtain ⟨l, ha⟩ := AtLevel.ofLt (par := par) (i := m.level) hw (by omega)
  rw [if_neg hl, ha.contextAt, Res.ok_bind]
  have hc0 : m.c.length ≠ 0 := fun e => hc (.inl (List.length_eq_zero_iff.1 e))
  rcases fromBytes_list_total (r := .ntt) ha.wf hm with ⟨e, he⟩ | ⟨ps, hps, hlen, hall⟩
  · rw [he, Res.err_bind]; exact .inl ⟨_, rfl⟩
  rw [hps, Res.ok_bind]
  by_cases hs : m.seed = []
  · rw [if_pos hs, Res.pure_eq]
    refine .inr ⟨_, rfl, rfl, ha.lt, ?_, fun p hp => ?_, fun seed h => by cases h⟩
    · simp only [List.length_map, hlen]
      have : m.c.length ≠ 1 := fun e => hc (.inr ⟨e, hs⟩)
      omega
    · obtain ⟨q, hq, rfl⟩ := List.mem_map.1 hp
      refine ⟨((hall q hq).2 (by decide)).allowVt, ?_⟩
      rw [ha.contextAt, ← (hall q hq).1]; rfl
  · rw [if_neg hs]
    by_cases h32 : m.seed.length ≠ 32
    · rw [if_pos h32]; exact .inl ⟨_, rfl⟩
    rw [if_neg h32]
    obtain ⟨c1, h1, h2, h3⟩ := Prg.poly_valid hg ha.wf .ntt m.seed
    rw [h1, Res.lift_some, Res.ok_bind, Res.pure_eq]
    refine .inr ⟨_, rfl, rfl, ha.lt, ?_, fun p hp => ?_, fun seed h => ?_⟩
    · simp only [List.length_map, List.length_append, List.length_singleton, hlen]; omega
    · obtain ⟨q, hq, rfl⟩ := List.mem_map.1 hp
      rcases List.mem_append.1 hq with hq | hq
      · refine ⟨((hall q hq).2 (by decide)).allowVt, ?_⟩
        rw [ha.contextAt, ← (hall q hq).1]; rfl
      · rw [List.mem_singleton] at hq
        subst hq
        refine ⟨h3.allowVt, ?_⟩
        rw [ha.contextAt, ← h2]; rfl
    · simp only [Option.some.injEq] at h
      subst h
      refine ⟨by omega, fun last hlast => ?_⟩
      simp only [List.map_append, List.map_singleton, List.getLast?_append, List.getLast?_singleton, Option.some_or, Option.some.injEq] at hlast
      subst hlast
      refine ⟨c1, ?_, beq_of_vt rfl⟩
      rw [show c1.allowVt.ctx = l.ctx from h2]; exact h1

end Ciphertext

namespace KeySwitchingKey

/-- The key that is read back: all polynomials allow variable-time computations. -/
def allowVt (k : KeySwitchingKey) : KeySwitchingKey := { k with c0 := k.c0.map Poly.allowVt, c1 := k.c1.map Poly.allowVt }

theorem all_allowVt {r : Rep} (l : List (Poly r)) : (((l.map Poly.allowVt).zip l).all fun x => x.1.beq x.2) = true := by
  rw [List.all_eq_true]
  rintro ⟨x, y⟩ hxy
  obtain ⟨k, hk, e⟩ := List.getElem_of_mem hxy
  rw [List.getElem_zip, List.getElem_map] at e
  simp only [Prod.mk.injEq] at e
  rw [← e.1, ← e.2]
  exact beq_of_vt rfl

theorem allowVt_beq (k : KeySwitchingKey) : k.allowVt.beq k = true := by
  unfold beq allowVt
  simp only [all_allowVt, List.length_map, decide_true, Bool.and_true]

theorem isMod_beq {c : Context} {N : Nat} (h : c.WF b n) (hN : c.degree = N) {f : IntPoly N} {r : Rep} {p p' : Poly r} (hb : p'.beq p = true) (hp : p.IsMod c f) : p'.IsMod c f := by
  have h1 := (isMod_iff h hN).1 hp
  have h2 := beq_iff.1 hb
  have : p' = encI c r p'.vt f := by
    rw [h1] at h2
    cases p'
    simp only [encI, enc, Poly.mk.injEq] at h2 ⊢
    exact ⟨h2.1, h2.2.1, trivial, h2.2.2.2.1, h2.2.2.2.2⟩
  rw [this]
  exact isMod_encI h hN f

theorem isMods_beq {c : Context} {N : Nat} (h : c.WF b n) (hN : c.degree = N) {r : Rep} : ∀ {ps ps' : List (Poly r)} {F : List (IntPoly N)},
    ps'.length = ps.length → ((ps'.zip ps).all fun x => x.1.beq x.2) = true → List.Forall₂ (fun p f => p.IsMod c f) ps F → List.Forall₂ (fun p f => p.IsMod c f) ps' F
  | [], ps', F, hl, _, hf => by
    rw [List.length_eq_zero_iff.1 hl]; exact hf
  | p :: ps, [], F, hl, _, hf => by simp at hl
  | p :: ps, p' :: ps', _, hl, ha, .cons h1 h2 => by
    simp only [List.zip_cons_cons, List.all_cons, Bool.and_eq_true] at ha
    exact .cons (isMod_beq h hN ha.1 h1) (isMods_beq h hN (by simpa using hl) ha.2 h2)

/-- Equal keys switch between the same secrets. -/
theorem IsFor.beq (hw : ParWF b n par.toBfvParameters) {s G : IntPoly par.degree} {k k' : KeySwitchingKey} {i j e : Nat} (h : k.IsFor par s G i j e) (hb : k'.beq k = true) (hp : k'.par = par) :
    k'.IsFor par s G i j e := by
  unfold KeySwitchingKey.beq at hb
  simp only [Bool.and_eq_true, decide_eq_true_eq] at hb
  obtain ⟨⟨⟨⟨⟨⟨⟨⟨⟨⟨-, -⟩, b1⟩, b2⟩, b3⟩, b4⟩, b5⟩, b6⟩, b7⟩, b8⟩, b9⟩ := hb
  obtain ⟨E, hE, hE2⟩ := h.switches
  have hr : k'.ratio par = k.ratio par := by unfold ratio; rw [b5, b7]
  refine ⟨by rw [b5, h.level], by rw [b7, h.keyLevel], h.le, E, ⟨hp, by rw [b5, b6]; exact hE.ctx, by rw [b7, b8]; exact hE.ctxKsk, ?_⟩, hE2⟩
  obtain ⟨l, ha, hl⟩ := AtLevel.ofContext hw hE.ctxKsk
  obtain ⟨A, B, G', g1, g2, g3, g4, g5⟩ := hE.parts
  rw [← hl] at g2 g3
  refine ⟨A, B, G', ?_, ?_, ?_, g4, ?_⟩
  · cases g1 with
    | residues q1 q2 q3 => exact .residues (by rw [b9, q1]) (by rw [b6, q2]) (by rw [b6]; exact q3)
    | powers q1 q2 q3 q4 q5 =>
      rw [← b9]
      exact .powers (by rw [b9]; exact q1) (by rw [b9]; exact q2) (by rw [b6]; exact q3) (by rw [b9]; exact q4) (by rw [b9]; exact q5)
  · rw [b8, ← hl]; exact isMods_beq ha.wf ha.deg b1 b2 g2
  · rw [b8, ← hl]; exact isMods_beq ha.wf ha.deg b3 b4 g3
  · rw [hr]; exact g5

theorem mapM_range_eq {α : Type} {f : Nat → Panics α} {l : List α} (h : ∀ i x, l[i]? = some x → f i = some x) : (List.range l.length).mapM f = some l := by
  have key : ∀ (l : List α) (off : Nat), (∀ i x, l[i]? = some x → f (off + i) = some x) → (List.range' off l.length).mapM f = some l := by
    intro l
    induction l with
    | nil => intro off _; rfl
    | cons a l ih =>
      intro off h
      rw [List.length_cons, List.range'_succ, List.mapM_cons, show f off = some a from h 0 a rfl, ih (off + 1) fun i x hx => by
        have := h (i + 1) x (by simpa using hx)
        rw [← this]; congr 1; omega]
      rfl
  rw [List.range_eq_range']
  exact key l 0 fun i x hx => by rw [Nat.zero_add]; exact h i x hx

theorem generateC1_wf {k : KeySwitchingKey} (h : k.WellFormed g par) {seed : Seed} (hs : k.seed = some seed) :
    generateC1 g k.ctxKsk seed k.c0.length = some (k.c1.map Poly.allowVt) := by
  unfold generateC1
  rw [← h.count1, ← List.length_map Poly.allowVt]
  refine mapM_range_eq fun i x hx => ?_
  rw [List.getElem?_map] at hx
  cases hp : k.c1[i]? with
  | none => rw [hp] at hx; cases hx
  | some p =>
    rw [hp] at hx
    obtain ⟨p', e1, e2⟩ := (h.seed seed hs).2 i p hp
    rw [e1, Option.bind_eq_bind, Option.bind_some, Option.pure_def]
    rw [Option.map_some, Option.some_inj] at hx
    rw [← hx]
    have := beq_iff.1 e2
    cases p; cases p'
    simp only [Poly.mk.injEq] at this
    simp only [Poly.allowVt, Option.some_inj, Poly.mk.injEq]
    exact ⟨this.1.symm, this.2.1.symm, trivial, this.2.2.2.1.symm, this.2.2.2.2.symm⟩

/-- What the reader expects is what a well-formed key has. -/
theorem expectedCount_wf (hw : ParWF b n par.toBfvParameters) {k : KeySwitchingKey} (h : k.WellFormed g par) {m : KeySwitchingKeyMsg} (h1 : m.logBase = k.logBase) (h2 : m.kskLevel = k.kskLevel)
    (h3 : m.ciphertextLevel = k.ciphertextLevel) : expectedCount m par k.ctxCiphertext = Res.ok k.c0.length := by
  unfold expectedCount
  rcases h.count with ⟨e1, e2⟩ | ⟨e1, q, e2, e3, e4⟩
  · rw [if_neg (by rw [h1]; simp [e1]), e2]
  · rw [if_pos (by rw [h1]; exact e1), maxLevel_eq hw, Res.lift_some, Res.ok_bind]
    obtain ⟨l, ha, hl⟩ := AtLevel.ofContext hw h.ctx
    obtain ⟨l', ha', hl'⟩ := AtLevel.ofContext hw h.ctxKsk
    have f1 := ha.length
    have f2 := ha'.length
    rw [hl, e2, List.length_singleton] at f1
    rw [hl', e3, List.length_singleton] at f2
    have hm := ha.moduli
    rw [hl, e2, ← f1] at hm
    have hhead : par.moduli.head? = some q := by
      cases hpm : par.moduli with
      | nil => rw [hpm] at hm; simp at hm
      | cons a t => rw [hpm] at hm; simp only [List.take_succ_cons, List.take_zero, List.cons.injEq, and_true] at hm; rw [hm]; rfl
    have hq := ha.wf.supported.range q (by rw [hl, e2]; simp)
    rw [if_neg (by rw [h2, h3]; omega), hhead, Res.lift_some, Res.ok_bind]
    unfold logModulus divCeil
    rw [check_eq (show q ≤ 2 ^ 63 by omega)]
    simp only [Option.bind_eq_bind, Option.bind_some, Option.pure_def, Res.lift_some, Res.ok_bind]
    rw [check_eq (show m.logBase ≠ 0 by rw [h1]; exact e1)]
    simp only [Option.bind_some, Res.lift_some]
    rw [h1, e4]

theorem roundtrip_eq (hw : ParWF b n par.toBfvParameters) {k : KeySwitchingKey} (h : k.WellFormed g par) (h32 : par.moduli.length ≤ 2 ^ 32) :
    ∃ msg, k.toMsg = some msg ∧ fromMsg g msg par = Res.ok k.allowVt ∧ msg.Fits par.partSize ∧ (msg.c0.length = k.c0.length ∧ msg.c1.length ≤ k.c1.length) ∧ (∀ x ∈ msg.c0 ++ msg.c1, IsBytes x) ∧ msg.seed = k.seed.getD [] := by
  obtain ⟨l, ha, hl⟩ := AtLevel.ofContext hw h.ctx
  obtain ⟨l', ha', hl'⟩ := AtLevel.ofContext hw h.ctxKsk
  have hn : n ≤ 31 := by have := hw.le_16; omega
  have hser : ∀ p ∈ k.c0 ++ k.c1, ∃ x, p.toBytes = some x ∧ math (Poly.fromBytes .nttShoup x k.ctxKsk) = Res.ok p.disallowVt ∧ IsBytes x ∧ x.length ≤ par.partSize := by
    intro p hp
    rw [← hl']
    obtain ⟨f, hf, -⟩ := exists_encI ha'.wf ha'.deg (p := p) (by rw [hl']; exact (h.valid p hp).2) (h.valid p hp).1
    obtain ⟨x, a1, a2, a3, a5⟩ := toBytes_enc (r := .nttShoup) (vt := p.vt) ha'.wf hn (ha'.fits hw.le_16 h32) (ofInt l'.ctx f)
    refine ⟨x, by rw [hf]; exact a1, ?_, a2, a3.trans ha'.size_le⟩
    rw [a5, Res.math_ok]
    conv_rhs => rw [hf]
    rfl
  have hsers : ∀ ps : List (Poly .nttShoup), (∀ p ∈ ps, p ∈ k.c0 ++ k.c1) → ∃ ms, ps.mapM Poly.toBytes = some ms ∧ ms.length = ps.length ∧
      (ms.mapM fun x => math (Poly.fromBytes .nttShoup x k.ctxKsk)) = Res.ok (ps.map Poly.disallowVt) ∧ ∀ x ∈ ms, IsBytes x ∧ x.length ≤ par.partSize := by
    intro ps hps
    obtain ⟨ms, e1, e2⟩ := mapM_exists (f := Poly.toBytes) (l := ps) (fun p x => math (Poly.fromBytes .nttShoup x k.ctxKsk) = Res.ok p.disallowVt ∧ IsBytes x ∧ x.length ≤ par.partSize) fun p hp => hser p (hps p hp)
    refine ⟨ms, e1, e2.length_eq.symm, ?_, fun x hx => ?_⟩
    · rw [Res.mapM_eq_ok, List.forall₂_map_right_iff]
      exact e2.flip.imp fun _ _ h => h.1
    · obtain ⟨p, -, h⟩ := Ciphertext.mem_forall₂ e2 hx
      exact h.2
  have hmm : ∀ v : List (Poly .nttShoup), (v.map Poly.disallowVt).map Poly.allowVt = v.map Poly.allowVt := fun v => by rw [List.map_map]; rfl
  have hmm' : ∀ v : List (Poly .nttShoup), (v.map Poly.allowVt).map Poly.allowVt = v.map Poly.allowVt := fun v => by rw [List.map_map]; rfl
  obtain ⟨m0, a1, a2, a3, a4⟩ := hsers k.c0 fun p hp => by simp [hp]
  obtain ⟨m1, b1, b2, b3, b4⟩ := hsers k.c1 fun p hp => by simp [hp]
  have d1 : k.ciphertextLevel < 2 ^ 32 := by have := ha.lt; omega
  have d2 : k.kskLevel < 2 ^ 32 := by have := ha'.lt; omega
  have e1 : k.ciphertextLevel % 2 ^ 32 = k.ciphertextLevel := Nat.mod_eq_of_lt d1
  have e2 : k.kskLevel % 2 ^ 32 = k.kskLevel := Nat.mod_eq_of_lt d2
  have hall : ∀ x ∈ m0 ++ m1, IsBytes x ∧ x.length ≤ par.partSize := fun x hx => (List.mem_append.1 hx).elim (a4 x) (b4 x)
  have e3 : k.logBase % 2 ^ 32 = k.logBase := Nat.mod_eq_of_lt h.base
  cases hs : k.seed with
  | none =>
    refine ⟨{ c0 := m0, c1 := m1, seed := [], ciphertextLevel := k.ciphertextLevel, kskLevel := k.kskLevel, logBase := k.logBase }, ?_, ?_,
      ⟨fun x hx => (hall x hx).2, by simp, d1, d2, h.base⟩, ⟨a2, le_of_eq b2⟩, fun x hx => (hall x hx).1, rfl⟩
    · unfold toMsg
      rw [hs]; simp only []
      rw [b1, Option.bind_eq_bind, Option.bind_some, a1, Option.bind_some, e1, e2, e3]; rfl
    · unfold fromMsg
      simp only []
      rw [h.ctxKsk, Res.ok_bind, h.ctx, Res.ok_bind, expectedCount_wf hw h rfl rfl rfl, Res.ok_bind, if_neg (by simp [a2]), if_neg (by simp [b2, h.count1]), if_neg (by simp), if_neg (by simp), b3, Res.ok_bind, a3, Res.ok_bind,
        Res.pure_eq, hmm, hmm, if_pos trivial]
      unfold allowVt
      rw [h.par_eq, ← hs]
  | some seed =>
    have hse := (h.seed seed hs).1
    have hs0 : seed ≠ [] := by rintro rfl; simp at hse
    refine ⟨{ c0 := m0, c1 := [], seed := seed, ciphertextLevel := k.ciphertextLevel, kskLevel := k.kskLevel, logBase := k.logBase }, ?_, ?_,
      ⟨fun x hx => (a4 x (by simpa using hx)).2, le_of_eq hse, d1, d2, h.base⟩, ⟨a2, by simp⟩, fun x hx => (a4 x (by simpa using hx)).1, rfl⟩
    · unfold toMsg
      rw [hs]; simp only []
      rw [Option.bind_eq_bind, Option.bind_some, a1, Option.bind_some, e1, e2, e3]; rfl
    · unfold fromMsg
      simp only []
      rw [h.ctxKsk, Res.ok_bind, h.ctx, Res.ok_bind, expectedCount_wf hw h rfl rfl rfl, Res.ok_bind, if_neg (by simp [a2]), if_neg (by simp [hs0]), if_neg (by simp [hse]), if_pos hs0, a2, generateC1_wf h hs, Res.lift_some, Res.ok_bind,
        a3, Res.ok_bind, Res.pure_eq, hmm, hmm', if_neg hs0]
      unfold allowVt
      rw [h.par_eq, ← hs]

/-- Reading any message never panics, and what is accepted is well formed. -/
theorem fromMsg_total (hw : ParWF b n par.toBfvParameters) (hg : g.OK) {m : KeySwitchingKeyMsg} (hm : m.OK) :
    (∃ e, fromMsg g m par = Res.err e) ∨ ∃ k, fromMsg g m par = Res.ok k ∧ k.WellFormed g par ∧ k.ciphertextLevel = m.ciphertextLevel ∧ k.kskLevel = m.kskLevel ∧ k.logBase = m.logBase := by
  have hpos := List.length_pos_of_ne_nil hw.ne_nil
  unfold fromMsg
  rcases contextAtLevel_cases hw m.kskLevel with ⟨l', ha'⟩ | ⟨-, e, he⟩
  swap; · rw [he, Res.err_bind]; exact .inl ⟨_, rfl⟩
  rw [ha'.contextAt, Res.ok_bind]
  rcases contextAtLevel_cases hw m.ciphertextLevel with ⟨l, ha⟩ | ⟨-, e, he⟩
  swap; · rw [he, Res.err_bind]; exact .inl ⟨_, rfl⟩
  rw [ha.contextAt, Res.ok_bind]
  have hcount : (∃ e, expectedCount m par l.ctx = Res.err e) ∨ ∃ size, expectedCount m par l.ctx = Res.ok size ∧ ((m.logBase = 0 ∧ size = l.ctx.moduli.length) ∨
      (m.logBase ≠ 0 ∧ ∃ q, l.ctx.moduli = [q] ∧ l'.ctx.moduli = [q] ∧ size = (RnsScaler.ceilLog2 q + m.logBase - 1) / m.logBase)) := by
    unfold expectedCount
    by_cases h0 : m.logBase ≠ 0
    · rw [if_pos h0, maxLevel_eq hw, Res.lift_some, Res.ok_bind]
      by_cases h1 : m.kskLevel ≠ par.moduli.length - 1 ∨ m.ciphertextLevel ≠ par.moduli.length - 1
      · rw [if_pos h1]; exact .inl ⟨_, rfl⟩
      · rw [if_neg h1]
        rw [not_or, not_not, not_not] at h1
        cases hpm : par.moduli with
        | nil => rw [hpm] at hpos; simp at hpos
        | cons q t =>
          have g1 := ha.moduli
          have g2 := ha'.moduli
          rw [h1.2, show par.moduli.length - (par.moduli.length - 1) = 1 by omega, hpm] at g1
          rw [h1.1, show par.moduli.length - (par.moduli.length - 1) = 1 by omega, hpm] at g2
          simp only [List.take_succ_cons, List.take_zero] at g1 g2
          have hq := ha.wf.supported.range q (by rw [g1]; simp)
          rw [List.head?_cons, Res.lift_some, Res.ok_bind]
          unfold logModulus divCeil
          rw [check_eq (show q ≤ 2 ^ 63 by omega)]
          simp only [Option.bind_eq_bind, Option.bind_some, Option.pure_def, Res.lift_some, Res.ok_bind]
          rw [check_eq h0]
          simp only [Option.bind_some, Res.lift_some]
          exact .inr ⟨_, rfl, .inr ⟨h0, q, g1, g2, rfl⟩⟩
    · rw [if_neg h0]
      exact .inr ⟨_, rfl, .inl ⟨by omega, rfl⟩⟩
  rcases hcount with ⟨e, he⟩ | ⟨size, he, hsize⟩
  · rw [he, Res.err_bind]; exact .inl ⟨_, rfl⟩
  rw [he, Res.ok_bind]
  by_cases c1 : m.c0.length ≠ size
  · rw [if_pos c1]; exact .inl ⟨_, rfl⟩
  rw [if_neg c1]
  by_cases c2 : m.seed = [] ∧ m.c1.length ≠ size
  · rw [if_pos c2]; exact .inl ⟨_, rfl⟩
  rw [if_neg c2]
  by_cases c3 : m.seed ≠ [] ∧ m.seed.length ≠ 32
  · rw [if_pos c3]; exact .inl ⟨_, rfl⟩
  rw [if_neg c3]
  rw [not_not] at c1
  have hvalid : ∀ ps : List (Poly .nttShoup), (∀ p ∈ ps, p.ctx = l'.ctx ∧ (Rep.nttShoup ≠ .powerBasis → p.Valid)) → ∀ p ∈ ps.map Poly.allowVt, p.Valid ∧ p.ctx = l'.ctx := by
    intro ps hps p hp
    obtain ⟨q, hq, rfl⟩ := List.mem_map.1 hp
    exact ⟨((hps q hq).2 (by decide)).allowVt, (hps q hq).1⟩
  have hparts := fromBytes_list_total (r := .nttShoup) ha'.wf (ms := m.c0) fun x hx => hm.parts x (by simp [hx])
  by_cases hs : m.seed = []
  · rw [if_neg (by simp [hs])]
    rcases fromBytes_list_total (r := .nttShoup) ha'.wf (ms := m.c1) fun x hx => hm.parts x (by simp [hx]) with ⟨e, he⟩ | ⟨ps1, hp1, hl1, hv1⟩
    · rw [he, Res.err_bind]; exact .inl ⟨_, rfl⟩
    rw [hp1, Res.ok_bind]
    simp only []
    rcases hparts with ⟨e, he⟩ | ⟨ps, hp, hl, hv⟩
    · rw [he, Res.err_bind]; exact .inl ⟨_, rfl⟩
    rw [hp, Res.ok_bind, Res.pure_eq]
    refine .inr ⟨_, rfl, ⟨rfl, ha.contextAt, ha'.contextAt, hm.logBase, ?_, ?_, fun p hp => ?_, fun seed h => ?_⟩, rfl, rfl, rfl⟩
    · simp only [List.length_map, hl, c1]; exact hsize
    · simp only [List.length_map, hl, hl1, c1]
      by_contra hc; exact c2 ⟨hs, hc⟩
    · rcases List.mem_append.1 hp with hp | hp
      · exact hvalid ps hv p hp
      · exact hvalid ps1 hv1 p hp
    · simp only [if_pos hs] at h; cases h
  · rw [if_pos hs]
    obtain ⟨ps1, hp1, hl1, hv1, hg1⟩ : ∃ ps1, generateC1 g l'.ctx m.seed m.c0.length = some ps1 ∧ ps1.length = m.c0.length ∧ (∀ p ∈ ps1, p.ctx = l'.ctx ∧ (Rep.nttShoup ≠ .powerBasis → p.Valid)) ∧
        ∀ i p, ps1[i]? = some p → ∃ p', g.poly .nttShoup l'.ctx (g.derive m.seed i) = some p' ∧ p = p'.allowVt := by
      obtain ⟨ps1, e1, e2⟩ := mapM_exists (f := fun i => do return (← g.poly .nttShoup l'.ctx (g.derive m.seed i)).allowVt) (l := List.range m.c0.length)
        (fun i p => ∃ p', g.poly .nttShoup l'.ctx (g.derive m.seed i) = some p' ∧ p = p'.allowVt ∧ p'.ctx = l'.ctx ∧ p'.Valid) fun i _ => by
          obtain ⟨p', a1, a2, a3⟩ := Prg.poly_valid hg ha'.wf .nttShoup (g.derive m.seed i)
          exact ⟨_, by rw [a1]; rfl, p', a1, rfl, a2, a3⟩
      have e3 := List.forall₂_iff_get.1 e2
      have e4 : ps1.length = m.c0.length := by rw [← e3.1, List.length_range]
      have key : ∀ i p, ps1[i]? = some p → ∃ p', g.poly .nttShoup l'.ctx (g.derive m.seed i) = some p' ∧ p = p'.allowVt ∧ p'.ctx = l'.ctx ∧ p'.Valid := by
        intro i p hp
        obtain ⟨hi, rfl⟩ := List.getElem?_eq_some_iff.1 hp
        have := e3.2 i (by rw [List.length_range]; omega) hi
        simpa using this
      refine ⟨ps1, e1, e4, fun p hp => ?_, fun i p hp => ?_⟩
      · obtain ⟨i, hi, rfl⟩ := List.getElem_of_mem hp
        obtain ⟨p', -, e, a2, a3⟩ := key i _ (List.getElem?_eq_getElem hi)
        rw [e]; exact ⟨a2, fun _ => a3.allowVt⟩
      · obtain ⟨p', a1, a2, -⟩ := key i p hp
        exact ⟨p', a1, a2⟩
    rw [hp1, Res.lift_some, Res.ok_bind]
    simp only []
    rcases hparts with ⟨e, he⟩ | ⟨ps, hp, hl, hv⟩
    · rw [he, Res.err_bind]; exact .inl ⟨_, rfl⟩
    rw [hp, Res.ok_bind, Res.pure_eq]
    refine .inr ⟨_, rfl, ⟨rfl, ha.contextAt, ha'.contextAt, hm.logBase, ?_, ?_, fun p hp => ?_, fun seed h => ?_⟩, rfl, rfl, rfl⟩
    · simp only [List.length_map, hl, c1]; exact hsize
    · simp only [List.length_map, hl, hl1]
    · rcases List.mem_append.1 hp with hp | hp
      · exact hvalid ps hv p hp
      · exact hvalid ps1 hv1 p hp
    · simp only [if_neg hs, Option.some.injEq] at h
      subst h
      refine ⟨by by_contra hc; exact c3 ⟨hs, hc⟩, fun i p hp => ?_⟩
      simp only [List.getElem?_map] at hp
      cases hpi : ps1[i]? with
      | none => rw [hpi] at hp; cases hp
      | some q =>
        rw [hpi, Option.map_some, Option.some_inj] at hp
        obtain ⟨p', a1, a2⟩ := hg1 i q hpi
        exact ⟨p', a1, by rw [← hp, a2]; exact beq_of_vt rfl⟩

/-- Keys made by the library are well formed. -/
theorem IsFor.wellFormed (hw : ParWF b n par.toBfvParameters) {s G : IntPoly par.degree} {k : KeySwitchingKey} {i j e : Nat} (h : k.IsFor par s G i j e) {seed : Seed} (hs : k.seed = some seed)
    (h32 : seed.length = 32) (hc : generateC1 g k.ctxKsk seed k.c0.length = some k.c1) (hlog : k.logBase = 0 ↔ j + 1 < par.moduli.length) : k.WellFormed g par := by
  obtain ⟨E, hE, -⟩ := h.switches
  obtain ⟨A, B, G', g1, g2, g3, g4, -⟩ := hE.parts
  obtain ⟨l, ha, hl⟩ := AtLevel.ofContext hw hE.ctx
  obtain ⟨l', ha', hl'⟩ := AtLevel.ofContext hw hE.ctxKsk
  have hi := h.level
  have hj := h.keyLevel
  have hij := h.le
  have hmem : ∀ {ps : List (Poly .nttShoup)} {F : List (IntPoly par.degree)}, List.Forall₂ (fun p f => p.IsMod k.ctxKsk f) ps F → ∀ p ∈ ps, p.Valid ∧ p.ctx = k.ctxKsk := by
    intro ps F hF p hp
    obtain ⟨t, ht, rfl⟩ := List.getElem_of_mem hp
    have := (List.forall₂_iff_get.1 hF).2 t ht (by rw [← hF.length_eq]; exact ht)
    exact ⟨this.valid, this.ctx⟩
  refine ⟨hE.par_eq, hE.ctx, hE.ctxKsk, ?_, ?_, by rw [g2.length_eq, g3.length_eq, g4.1, g4.2.1], fun p hp => ?_, fun sd hsd => ?_⟩
  · cases g1 with
    | residues q1 q2 q3 => rw [q1]; norm_num
    | powers q1 q2 q3 q4 q5 => omega
  · cases g1 with
    | residues q1 q2 q3 => exact .inl ⟨q1, by rw [g2.length_eq, g4.1, q2]⟩
    | @powers q count q1 q2 q3 q4 q5 =>
      have hlt := ha.lt
      have hij' : k.kskLevel = k.ciphertextLevel := by
        have : ¬ j + 1 < par.moduli.length := fun e => by have := hlog.2 e; omega
        omega
      have hctx : k.ctxKsk = k.ctxCiphertext := by
        have h1 := hE.ctx
        rw [← hij', hE.ctxKsk, Res.ok_inj] at h1
        exact h1
      refine .inr ⟨by omega, q, q3, by rw [hctx, q3], ?_⟩
      rw [g2.length_eq, g4.1, List.length_map, List.length_range, q5]
  · rcases List.mem_append.1 hp with hp | hp
    · exact hmem g2 p hp
    · exact hmem g3 p hp
  · rw [hs, Option.some_inj] at hsd
    subst hsd
    refine ⟨h32, fun t p hp => ?_⟩
    obtain ⟨ht, rfl⟩ := List.getElem?_eq_some_iff.1 hp
    have hf := mapM_some_inv hc
    have := (List.forall₂_iff_get.1 hf).2 t (by rw [hf.length_eq]; exact ht) ht
    simp only [List.get_eq_getElem, List.getElem_range, Option.bind_eq_bind, Option.bind_eq_some_iff, Option.pure_def, Option.some_inj] at this
    obtain ⟨p', h1, h2⟩ := this
    exact ⟨p', h1, by rw [← h2]; exact beq_of_vt rfl⟩

end KeySwitchingKey

namespace GaloisKey

theorem element_eq (hw : ParWF b n par.toBfvParameters) {c : Context} (h : c.WF b n) {x : Nat} {σ : SubstExponent} (hx : x % 2 = 1) (hs : SubstExponent.new c x = some (.ok σ)) :
    σ.exponent = x % (2 * par.degree) ∧ SubstExponent.new c σ.exponent = some (.ok σ) ∧ σ.exponent % 2 = 1 ∧ σ.exponent < 2 * par.degree := by
  have hn : n ≤ 31 := by have := hw.le_16; omega
  have hN := hw.degree
  have hpos : 0 < 2 * 2 ^ n := by positivity
  rw [SubstExponent.new_odd h hn hx, Option.some_inj, Except.ok.injEq] at hs
  subst hs
  have hodd : x % (2 * 2 ^ n) % 2 = 1 := by rw [Nat.mod_mul_right_mod]; exact hx
  refine ⟨by simp only [hN], ?_, hodd, by rw [hN]; exact Nat.mod_lt _ hpos⟩
  rw [SubstExponent.new_odd h hn hodd]
  simp only [Nat.mod_mod]

theorem IsFor.wellFormed (hw : ParWF b n par.toBfvParameters) {s : IntPoly par.degree} {k : GaloisKey} {x i j e : Nat} (h : k.IsFor par s x i j e) {seed : Seed} (hs : k.ksk.seed = some seed)
    (h32 : seed.length = 32) (hc : KeySwitchingKey.generateC1 g k.ksk.ctxKsk seed k.ksk.c0.length = some k.ksk.c1) (hlog : k.ksk.logBase = 0 ↔ j + 1 < par.moduli.length) :
    k.WellFormed g par ∧ k.element.exponent = x % (2 * par.degree) := by
  have hk := h.switches.wellFormed hw hs h32 hc hlog
  obtain ⟨l, ha, hl⟩ := AtLevel.ofContext hw hk.ctx
  obtain ⟨e1, e2, e3, e4⟩ := element_eq hw (hl ▸ ha.wf) h.odd h.element
  exact ⟨⟨hk, e2, e3, e4⟩, e1⟩

/-- The key that is read back. -/
def allowVt (k : GaloisKey) : GaloisKey := { k with ksk := k.ksk.allowVt }

/-- The message of a Galois key can be encoded. -/
def Fits (B : Nat) (k : GaloisKey) (m : Nat × Option KeySwitchingKeyMsg) : Prop :=
  ∃ x, m.2 = some x ∧ m.1 < 2 ^ 32 ∧ x.Fits B ∧ (x.c0.length = k.ksk.c0.length ∧ x.c1.length ≤ k.ksk.c1.length) ∧ (∀ y ∈ x.c0 ++ x.c1, IsBytes y) ∧ x.seed = k.ksk.seed.getD []

theorem roundtrip_eq (hw : ParWF b n par.toBfvParameters) {k : GaloisKey} (h : k.WellFormed g par) (h32 : par.moduli.length ≤ 2 ^ 32) :
    ∃ msg, k.toMsg = some msg ∧ fromMsg g msg par = Res.ok k.allowVt ∧ Fits par.partSize k msg := by
  obtain ⟨msg, e1, e2, e3⟩ := KeySwitchingKey.roundtrip_eq hw h.ksk h32
  have hN : par.degree ≤ 2 ^ 16 := by rw [hw.degree]; exact Nat.pow_le_pow_right (by norm_num) hw.le_16
  have hr := h.range.2
  refine ⟨(k.element.exponent, some msg), ?_, ?_, msg, rfl, by simp only; omega, e3⟩
  · unfold toMsg
    rw [e1, Option.bind_eq_bind, Option.bind_some, Nat.mod_eq_of_lt (by omega)]; rfl
  · unfold fromMsg
    simp only []
    rw [e2, Res.ok_bind]
    have : par.contextAtLevel k.ksk.allowVt.ciphertextLevel = Res.ok k.ksk.ctxCiphertext := h.ksk.ctx
    rw [this, Res.ok_bind, h.element, Res.math_ok, Res.ok_bind]; rfl

theorem fromMsg_total (hw : ParWF b n par.toBfvParameters) (hg : g.OK) {m : Nat × Option KeySwitchingKeyMsg} (hm : ∀ k, m.2 = some k → k.OK) :
    (∃ e, fromMsg g m par = Res.err e) ∨ ∃ k, fromMsg g m par = Res.ok k ∧ k.WellFormed g par ∧ k.element.exponent = m.1 % (2 * par.degree) := by
  have hn : n ≤ 31 := by have := hw.le_16; omega
  unfold fromMsg
  cases hm2 : m.2 with
  | none => exact .inl ⟨_, rfl⟩
  | some ksk =>
    simp only []
    rcases KeySwitchingKey.fromMsg_total hw hg (hm ksk hm2) with ⟨e, he⟩ | ⟨k, he, hk, -⟩
    · rw [he, Res.err_bind]; exact .inl ⟨_, rfl⟩
    rw [he, Res.ok_bind, hk.ctx, Res.ok_bind]
    obtain ⟨l, ha, hl⟩ := AtLevel.ofContext hw hk.ctx
    have hcw : k.ctxCiphertext.WF b n := hl ▸ ha.wf
    rcases Nat.mod_two_eq_zero_or_one m.1 with hx | hx
    · rw [SubstExponent.new_even hcw hx, Res.math_err, Res.err_bind]; exact .inl ⟨_, rfl⟩
    · have hσ := SubstExponent.new_odd hcw hn hx
      obtain ⟨σ, hσ'⟩ : ∃ σ, SubstExponent.new k.ctxCiphertext m.1 = some (.ok σ) := ⟨_, hσ⟩
      rw [hσ', Res.math_ok, Res.ok_bind, Res.pure_eq]
      obtain ⟨e1, e2, e3, e4⟩ := element_eq hw hcw hx hσ'
      exact .inr ⟨_, rfl, ⟨hk, e2, e3, e4⟩, e1⟩

end GaloisKey

/-! ### Maps -/

theorem lookup_filter_ne {α : Type} {k x : Nat} : ∀ {m : List (Nat × α)}, x ≠ k → (m.filter fun y => decide (y.1 ≠ k)).lookup x = m.lookup x
  | [], _ => rfl
  | (y, a) :: m, h => by
    rw [List.filter_cons]
    by_cases hy : y = k
    · subst hy
      rw [if_neg (by simp), lookup_filter_ne h, List.lookup_cons, beq_eq_false_iff_ne.2 h]
    · rw [if_pos (by simpa using hy), List.lookup_cons, List.lookup_cons, lookup_filter_ne h]

theorem lookup_mapInsert {α : Type} {m : List (Nat × α)} {k x : Nat} {v : α} : (mapInsert m k v).lookup x = if x = k then some v else m.lookup x := by
  unfold mapInsert
  rw [List.lookup_cons]
  by_cases h : x = k
  · subst h; simp
  · rw [beq_eq_false_iff_ne.2 h, if_neg h]
    exact lookup_filter_ne h

theorem nodup_mapInsert {α : Type} {m : List (Nat × α)} {k : Nat} {v : α} (h : (m.map Prod.fst).Nodup) : ((mapInsert m k v).map Prod.fst).Nodup := by
  unfold mapInsert
  rw [List.map_cons, List.nodup_cons]
  refine ⟨fun hk => ?_, h.sublist (List.filter_sublist.map _)⟩
  obtain ⟨y, hy, e⟩ := List.mem_map.1 hk
  have := (List.mem_filter.1 hy).2
  simp [e] at this

theorem lookup_of_mem {α : Type} : ∀ {m : List (Nat × α)} {x : Nat × α}, (m.map Prod.fst).Nodup → x ∈ m → m.lookup x.1 = some x.2
  | [], _, _, h => by cases h
  | y :: m, x, hn, h => by
    rw [List.map_cons, List.nodup_cons] at hn
    obtain ⟨y1, y2⟩ := y
    rw [List.lookup_cons]
    rcases List.mem_cons.1 h with rfl | h
    · simp
    · have : x.1 ≠ y1 := fun e => hn.1 (by simp only; rw [← e]; exact List.mem_map.2 ⟨x, h, rfl⟩)
      rw [beq_eq_false_iff_ne.2 this]
      exact lookup_of_mem hn.2 h

namespace EvaluationKey

/-- Reading back the Galois keys of a map without repetitions gives the same map. -/
theorem readKeys_roundtrip (hw : ParWF b n par.toBfvParameters) (h32 : par.moduli.length ≤ 2 ^ 32) {cl kl : Nat} : ∀ {gk acc : List (Nat × GaloisKey)},
    (gk.map Prod.fst).Nodup → (∀ x ∈ gk, x.2.WellFormed g par ∧ x.2.element.exponent = x.1 ∧ x.2.ksk.ciphertextLevel = cl ∧ x.2.ksk.kskLevel = kl) →
    ∃ msgs gk', (gk.mapM fun x => x.2.toMsg) = some msgs ∧ readKeys g par cl kl msgs acc = Res.ok gk' ∧ ((acc.map Prod.fst).Nodup → (gk'.map Prod.fst).Nodup) ∧
      (∀ x, gk'.lookup x = match gk.lookup x with | some k => some k.allowVt | none => acc.lookup x) ∧ ∀ m ∈ msgs, ∃ x ∈ gk, GaloisKey.Fits par.partSize x.2 m
  | [], acc, _, _ => ⟨[], acc, rfl, rfl, id, fun x => rfl, by simp⟩
  | (y, k) :: gk, acc, hn, hall => by
    rw [List.map_cons, List.nodup_cons] at hn
    obtain ⟨h1, h2, h3, h4⟩ := hall (y, k) (by simp)
    simp only at h1 h2 h3 h4
    obtain ⟨msg, e1, e2, e3⟩ := GaloisKey.roundtrip_eq hw h1 h32
    obtain ⟨msgs, gk', f1, f2, f3, f4, f5⟩ := readKeys_roundtrip hw h32 (gk := gk) (acc := mapInsert acc y k.allowVt) hn.2 fun x hx => hall x (by simp [hx])
    refine ⟨msg :: msgs, gk', ?_, ?_, fun hacc => f3 (nodup_mapInsert hacc), fun x => ?_, fun m hm => ?_⟩
    · rw [List.mapM_cons, e1, f1]; rfl
    · rw [readKeys, e2, Res.ok_bind]
      rw [if_neg (by simpa [GaloisKey.allowVt, KeySwitchingKey.allowVt] using h3), if_neg (by simpa [GaloisKey.allowVt, KeySwitchingKey.allowVt] using h4)]
      rw [show k.allowVt.element.exponent = y from h2, f2]
    · rw [f4, lookup_mapInsert, List.lookup_cons]
      by_cases hxy : x = y
      · subst hxy
        have : gk.lookup x = none := by
          rw [List.lookup_eq_none_iff]
          intro p hp
          have : x ≠ p.1 := fun e => hn.1 (by simp only at e ⊢; rw [e]; exact List.mem_map_of_mem hp)
          simpa using this
        rw [this]; simp
      · rw [beq_eq_false_iff_ne.2 hxy, if_neg hxy]
    · rcases List.mem_cons.1 hm with rfl | hm
      · exact ⟨(y, k), by simp, e3⟩
      · obtain ⟨x, hx, h⟩ := f5 m hm
        exact ⟨x, by simp [hx], h⟩

theorem roundtrip_eq (hw : ParWF b n par.toBfvParameters) {k : EvaluationKey} (h : k.WellFormed b g par) (h32 : par.moduli.length ≤ 2 ^ 32) :
    ∃ msg gk', k.toMsg = some msg ∧ fromMsg b g msg par = Res.ok { k with gk := gk' } ∧ (gk'.map Prod.fst).Nodup ∧ (∀ x, gk'.lookup x = (k.gk.lookup x).map GaloisKey.allowVt) ∧
      msg.gk.length = k.gk.length ∧ (∀ m ∈ msg.gk, ∃ x ∈ k.gk, GaloisKey.Fits par.partSize x.2 m) ∧ msg.ciphertextLevel < 2 ^ 32 ∧ msg.keyLevel < 2 ^ 32 := by
  obtain ⟨msgs, gk', f1, f2, f3, f4, f5⟩ := readKeys_roundtrip (g := g) (cl := k.ciphertextLevel) (kl := k.keyLevel) hw h32 (gk := k.gk) (acc := []) h.nodup fun x hx => by
    exact h.gk x.1 x.2 (lookup_of_mem h.nodup hx)
  have h1 := h.lt
  refine ⟨⟨msgs, k.ciphertextLevel, k.keyLevel⟩, gk', ?_, ?_, f3 (by simp), fun x => ?_, (by simpa using RnsScaler.mapM_length f1), f5, by simp only; omega, h.key⟩
  · unfold toMsg
    rw [f1, Option.bind_eq_bind, Option.bind_some, Nat.mod_eq_of_lt (by omega), Nat.mod_eq_of_lt h.key]; rfl
  · unfold fromMsg
    simp only []
    obtain ⟨ctx, m1, m2⟩ := h.monomials
    rw [f2, Res.ok_bind, m1, Res.ok_bind, m2, Res.ok_bind, h.rot, Res.lift_some, Res.ok_bind, Res.pure_eq, h.par_eq]
  · rw [f4]
    cases k.gk.lookup x <;> rfl

/-- The map under construction when keys are read. -/
theorem readKeys_total (hw : ParWF b n par.toBfvParameters) (hg : g.OK) {cl kl : Nat} : ∀ {ms : List (Nat × Option KeySwitchingKeyMsg)} {acc : List (Nat × GaloisKey)},
    (∀ m ∈ ms, ∀ k, m.2 = some k → k.OK) → (acc.map Prod.fst).Nodup →
    (∀ x gk, acc.lookup x = some gk → gk.WellFormed g par ∧ gk.element.exponent = x ∧ gk.ksk.ciphertextLevel = cl ∧ gk.ksk.kskLevel = kl) →
    (∃ e, readKeys g par cl kl ms acc = Res.err e) ∨ ∃ gk', readKeys g par cl kl ms acc = Res.ok gk' ∧ (gk'.map Prod.fst).Nodup ∧
      (∀ x gk, gk'.lookup x = some gk → gk.WellFormed g par ∧ gk.element.exponent = x ∧ gk.ksk.ciphertextLevel = cl ∧ gk.ksk.kskLevel = kl) ∧
      ∀ x, (gk'.lookup x).isSome = true ↔ (acc.lookup x).isSome = true ∨ ∃ m ∈ ms, x = m.1 % (2 * par.degree)
  | [], acc, _, h1, h2 => .inr ⟨acc, rfl, h1, h2, fun x => by simp⟩
  | m :: ms, acc, hm, h1, h2 => by
    rw [readKeys]
    rcases GaloisKey.fromMsg_total hw hg (hm m (by simp)) with ⟨e, he⟩ | ⟨k, he, hk, hx⟩
    · rw [he, Res.err_bind]; exact .inl ⟨_, rfl⟩
    rw [he, Res.ok_bind]
    by_cases c1 : k.ksk.ciphertextLevel ≠ cl
    · rw [if_pos c1]; exact .inl ⟨_, rfl⟩
    rw [if_neg c1]
    by_cases c2 : k.ksk.kskLevel ≠ kl
    · rw [if_pos c2]; exact .inl ⟨_, rfl⟩
    rw [if_neg c2]
    rcases readKeys_total hw hg (ms := ms) (acc := mapInsert acc k.element.exponent k) (fun m' hm' => hm m' (by simp [hm'])) (nodup_mapInsert h1) (fun x gk hx => by
      rw [lookup_mapInsert] at hx
      split at hx
      · next hxe =>
        rw [Option.some_inj] at hx
        subst hx
        exact ⟨hk, hxe.symm, not_not.1 c1, not_not.1 c2⟩
      · exact h2 x gk hx) with ⟨e, he'⟩ | ⟨gk', e1, e2, e3, e4⟩
    · exact .inl ⟨e, he'⟩
    · refine .inr ⟨gk', e1, e2, e3, fun x => ?_⟩
      rw [e4, lookup_mapInsert]
      by_cases hxe : x = k.element.exponent
      · rw [if_pos hxe]
        simp only [Option.isSome_some, true_or, true_iff]
        exact .inr ⟨m, by simp, by rw [hxe, hx]⟩
      · rw [if_neg hxe]
        constructor
        · rintro (h | ⟨m', h, e⟩)
          · exact .inl h
          · exact .inr ⟨m', by simp [h], e⟩
        · rintro (h | ⟨m', h, e⟩)
          · exact .inl h
          · rcases List.mem_cons.1 h with rfl | h
            · exact absurd (e.trans hx.symm) hxe
            · exact .inr ⟨m', h, e⟩

theorem fromMsg_total (hw : ParWF b n par.toBfvParameters) (hg : g.OK) {m : EvaluationKeyMsg} (hm : ∀ x ∈ m.gk, ∀ k, x.2 = some k → k.OK) (hk32 : m.keyLevel < 2 ^ 32) :
    (∃ e, fromMsg b g m par = Res.err e) ∨ ∃ k, fromMsg b g m par = Res.ok k ∧ k.WellFormed b g par ∧ k.ciphertextLevel = m.ciphertextLevel ∧ k.keyLevel = m.keyLevel ∧
      ∀ x, (k.gk.lookup x).isSome = true ↔ ∃ y ∈ m.gk, x = y.1 % (2 * par.degree) := by
  unfold fromMsg
  rcases readKeys_total hw hg (cl := m.ciphertextLevel) (kl := m.keyLevel) (ms := m.gk) (acc := []) hm (by simp) (by simp) with ⟨e, he⟩ | ⟨gk', e1, e2, e3, e4⟩
  · rw [he, Res.err_bind]; exact .inl ⟨_, rfl⟩
  rw [e1, Res.ok_bind]
  rcases contextAtLevel_cases hw m.ciphertextLevel with ⟨l, ha⟩ | ⟨-, e, he⟩
  swap; · rw [he, Res.err_bind]; exact .inl ⟨_, rfl⟩
  obtain ⟨ms, f1, -⟩ := makeMonomials_eq hw ha
  rw [ha.contextAt, Res.ok_bind, f1, Res.ok_bind, constructRot_eq hw, Res.lift_some, Res.ok_bind, Res.pure_eq]
  refine .inr ⟨_, rfl, ⟨rfl, ha.lt, hk32, e2, e3, constructRot_eq hw, l.ctx, ha.contextAt, f1⟩, rfl, rfl, fun x => ?_⟩
  simp only [e4]; simp

end EvaluationKey

namespace RgswCiphertext

/-- The ciphertext that is read back. -/
def allowVt (r : RgswCiphertext) : RgswCiphertext := ⟨r.ksk0.allowVt, r.ksk1.allowVt⟩

theorem roundtrip_eq (hw : ParWF b n par.toBfvParameters) {r : RgswCiphertext} (h : r.WellFormed g par) (h32 : par.moduli.length ≤ 2 ^ 32) :
    ∃ msg, r.toMsg = some msg ∧ fromMsg g msg par = Res.ok r.allowVt ∧ ∃ m0 m1, msg = ⟨some m0, some m1⟩ ∧ (m0.Fits par.partSize ∧ (m0.c0.length = r.ksk0.c0.length ∧ m0.c1.length ≤ r.ksk0.c1.length) ∧ (∀ y ∈ m0.c0 ++ m0.c1, IsBytes y) ∧ m0.seed = r.ksk0.seed.getD []) ∧
      (m1.Fits par.partSize ∧ (m1.c0.length = r.ksk1.c0.length ∧ m1.c1.length ≤ r.ksk1.c1.length) ∧ (∀ y ∈ m1.c0 ++ m1.c1, IsBytes y) ∧ m1.seed = r.ksk1.seed.getD []) := by
  obtain ⟨m0, e1, e2, e3⟩ := KeySwitchingKey.roundtrip_eq hw h.fst h32
  obtain ⟨m1, f1, f2, f3⟩ := KeySwitchingKey.roundtrip_eq hw h.snd h32
  obtain ⟨h1, h2, h3⟩ := h.levels
  refine ⟨⟨some m0, some m1⟩, ?_, ?_, m0, m1, rfl, e3, f3⟩
  · unfold toMsg; rw [e1, f1]; rfl
  · unfold fromMsg
    simp only []
    rw [e2, Res.ok_bind, f2, Res.ok_bind]
    rw [if_neg (by simp only [KeySwitchingKey.allowVt]; omega)]; rfl

theorem fromMsg_total (hw : ParWF b n par.toBfvParameters) (hg : g.OK) {m : RgswMsg} (hm : ∀ k, m.ksk0 = some k ∨ m.ksk1 = some k → k.OK) :
    (∃ e, fromMsg g m par = Res.err e) ∨ ∃ r, fromMsg g m par = Res.ok r ∧ r.WellFormed g par := by
  unfold fromMsg
  cases h0 : m.ksk0 with
  | none => exact .inl ⟨_, rfl⟩
  | some m0 =>
    simp only []
    rcases KeySwitchingKey.fromMsg_total hw hg (hm m0 (.inl h0)) with ⟨e, he⟩ | ⟨k0, e1, e2, -⟩
    · rw [he, Res.err_bind]; exact .inl ⟨_, rfl⟩
    rw [e1, Res.ok_bind]
    cases h1 : m.ksk1 with
    | none => exact .inl ⟨_, rfl⟩
    | some m1 =>
      simp only []
      rcases KeySwitchingKey.fromMsg_total hw hg (hm m1 (.inr h1)) with ⟨e, he⟩ | ⟨k1, f1, f2, -⟩
      · rw [he, Res.err_bind]; exact .inl ⟨_, rfl⟩
      rw [f1, Res.ok_bind]
      by_cases c : k0.kskLevel ≠ k0.ciphertextLevel ∨ k0.ciphertextLevel ≠ k1.ciphertextLevel ∨ k1.ciphertextLevel ≠ k1.kskLevel
      · rw [if_pos c]; exact .inl ⟨_, rfl⟩
      · rw [if_neg c]
        exact .inr ⟨_, rfl, e2, f2, by simp only; omega⟩

end RgswCiphertext
theorem Ciphertext.WellFormed.disallowVt {ct : Ciphertext} (h : ct.WellFormed g par) : ({ ct with c := ct.c.map Poly.disallowVt } : Ciphertext).WellFormed g par := by
  refine ⟨h.par_eq, h.level, by simpa using h.parts, fun p hp => ?_, fun seed hs => ⟨(h.seed seed hs).1, fun last hl => ?_⟩⟩
  · simp only [List.mem_map] at hp
    obtain ⟨q, hq, rfl⟩ := hp
    have hv := (h.valid q hq).1
    exact ⟨⟨hv.notLazy, hv.rows, hv.columns, hv.reduced, hv.shoup⟩, (h.valid q hq).2⟩
  · simp only [List.getLast?_map, Option.map_eq_some_iff] at hl
    obtain ⟨q, hq, rfl⟩ := hl
    obtain ⟨p, e1, e2⟩ := (h.seed seed hs).2 q hq
    exact ⟨p, e1, e2⟩

theorem KeySwitchingKey.WellFormed.allowVt {k : KeySwitchingKey} (h : k.WellFormed g par) : k.allowVt.WellFormed g par := by
  refine ⟨h.par_eq, h.ctx, h.ctxKsk, h.base, ?_, ?_, fun p hp => ?_, fun seed hs => ⟨(h.seed seed hs).1, fun i p hp => ?_⟩⟩
  · simpa [KeySwitchingKey.allowVt] using h.count
  · simpa [KeySwitchingKey.allowVt] using h.count1
  · simp only [KeySwitchingKey.allowVt, ← List.map_append, List.mem_map] at hp
    obtain ⟨q, hq, rfl⟩ := hp
    exact ⟨(h.valid q hq).1.allowVt, (h.valid q hq).2⟩
  · simp only [KeySwitchingKey.allowVt, List.getElem?_map, Option.map_eq_some_iff] at hp
    obtain ⟨q, hq, rfl⟩ := hp
    obtain ⟨p', e1, e2⟩ := (h.seed seed hs).2 i q hq
    exact ⟨p', e1, e2⟩

theorem GaloisKey.WellFormed.allowVt {k : GaloisKey} (h : k.WellFormed g par) : k.allowVt.WellFormed g par := ⟨h.ksk.allowVt, h.element, h.range⟩

theorem GaloisKey.IsFor.allowVt (hw : ParWF b n par.toBfvParameters) {s : IntPoly par.degree} {k : GaloisKey} {x i j e : Nat} (h : k.IsFor par s x i j e) (hp : k.ksk.par = par) :
    k.allowVt.IsFor par s x i j e :=
  ⟨h.odd, h.element, KeySwitchingKey.IsFor.beq hw h.switches (KeySwitchingKey.allowVt_beq _) hp⟩

/-- The level of an accepted key exists. -/
theorem KeySwitchingKey.fromMsg_level {m : KeySwitchingKeyMsg} {k : KeySwitchingKey} (h : KeySwitchingKey.fromMsg g m par = Res.ok k) :
    k.ciphertextLevel = m.ciphertextLevel ∧ ∃ c, par.contextAtLevel m.ciphertextLevel = Res.ok c := by
  unfold KeySwitchingKey.fromMsg at h
  simp only [Res.bind_eq_ok] at h
  obtain ⟨c, -, c', h2, size, -, h4⟩ := h
  refine ⟨?_, c', h2⟩
  split_ifs at h4
  · exact absurd h4 Res.err_ne_ok
  · exact absurd h4 Res.err_ne_ok
  · exact absurd h4 Res.err_ne_ok
  all_goals
    simp only [Res.bind_eq_ok] at h4
    obtain ⟨c1, -, c0, -, h5⟩ := h4
    rw [Res.pure_eq, Res.ok_inj] at h5
    rw [← h5]

/-- All Galois keys of an accepted message are accepted, and at the right levels. -/
theorem EvaluationKey.readKeys_inv {cl kl : Nat} : ∀ {ms : List (Nat × Option KeySwitchingKeyMsg)} {acc out : List (Nat × GaloisKey)}, readKeys g par cl kl ms acc = Res.ok out →
    ∀ m ∈ ms, ∃ k, GaloisKey.fromMsg g m par = Res.ok k ∧ k.ksk.ciphertextLevel = cl ∧ k.ksk.kskLevel = kl
  | [], _, _, _, m, hm => by cases hm
  | x :: ms, acc, out, h, m, hm => by
    rw [readKeys, Res.bind_eq_ok] at h
    obtain ⟨k, h1, h2⟩ := h
    by_cases c1 : k.ksk.ciphertextLevel ≠ cl
    · rw [if_pos c1] at h2; exact absurd h2 Res.err_ne_ok
    by_cases c2 : k.ksk.kskLevel ≠ kl
    · rw [if_neg c1, if_pos c2] at h2; exact absurd h2 Res.err_ne_ok
    rw [if_neg c1, if_neg c2] at h2
    rcases List.mem_cons.1 hm with rfl | hm
    · exact ⟨k, h1, not_not.1 c1, not_not.1 c2⟩
    · exact readKeys_inv h2 m hm

end Fhe
