import Verif.Props.Wire
import Verif.Props.Interchange
import Verif.Lemmas.BfvExample
/-!
# Property C82: the bytes identify the object

Two objects of the same parameters are equal, in the sense of `==`, exactly if they are written as the same bytes.
-/
namespace Fhe.Props
open Nega Poly ParamsBuilder Wire

variable {b : Build} {par : Par} {st st' : ParamsBuilder} {g g' : Prg}

/-- C82: two polynomials of a context are written as the same bytes exactly if they are equal. -/
theorem C82_poly {c : Context} {moduli : List Nat} {degree : Nat} {r : Rep} (hb : b.OK) (hc : Context.new b moduli degree = some (.ok c)) (hd : degree ≤ 2 ^ 31) (hm : moduli.length ≤ 2 ^ 29)
    {p q : Poly r} {f f' : c.Elem} (hp : Represents c p f) (hq : Represents c q f') : (p.toBytes = q.toBytes ↔ p.beq q = true) ∧ (p.toBytes = q.toBytes ↔ f = f') := by
  have hbeq : ∀ {p q : Poly r}, p.beq q = true ↔ ({ p with vt := false } : Poly r) = { q with vt := false } := beq_iff
  obtain ⟨n, hdeg, hw, hmod⟩ := Context.new_inv hb hc
  have hpe := (represents_iff hw).1 hp
  have hqe := (represents_iff hw).1 hq
  obtain ⟨bytes, h1, -, h2⟩ := C62_poly hb hc hd hm hp
  obtain ⟨bytes', h1', -, h2'⟩ := C62_poly hb hc hd hm hq
  have hbf : p.toBytes = q.toBytes → p.beq q = true := by
    intro e
    rw [h1, h1', Option.some_inj] at e
    subst e
    rw [h2, Option.some_inj, Except.ok.injEq] at h2'
    exact hbeq.2 h2'
  have hff : p.beq q = true → f = f' := by
    intro e
    obtain ⟨k, v, v', e1, e2⟩ := Alike.of_beq hw hp.valid hp.ctx e
    have r1 := hp.coeffs
    have r2 := hq.coeffs
    rw [e1, (represents_enc hw k).coeffs] at r1
    rw [e2, (represents_enc hw k).coeffs] at r2
    have := hw.neZero
    refine Nega.ext fun i => ?_
    have g1 := congrFun (List.ofFn_injective (Option.some.inj r1)) i
    have g2 := congrFun (List.ofFn_injective (Option.some.inj r2)) i
    exact ZMod.val_injective _ (g1.symm.trans g2)
  have hfb : f = f' → p.toBytes = q.toBytes := by
    rintro rfl
    exact Alike.toBytes hw ⟨f, p.vt, q.vt, hpe, hqe⟩
  exact ⟨⟨hbf, fun e => hfb (hff e)⟩, ⟨fun e => hff (hbf e), hfb⟩⟩

/-- C82: two ciphertexts are written as the same bytes exactly if they are equal. -/
theorem C82_ciphertext (hb : b.OK) (h : build b st = Res.ok par.toBfvParameters) (h32 : par.moduli.length ≤ 2 ^ 32) {x y : Ciphertext} (hx : x.WellFormed g par) (hy : y.WellFormed g par) :
    x.toBytes = y.toBytes ↔ x.beq y = true := by
  refine ⟨fun e => ?_, fun e => (C75_bytes (g := g) (g' := g) hb h).1 x y ⟨hx.par_eq, hx.level, hx.parts, hx.valid⟩ ⟨hy.par_eq, hy.level, hy.parts, hy.valid⟩ e⟩
  obtain ⟨bytes, x', h1, -, h2, h3, -⟩ := C62_ciphertext hb h h32 hx
  obtain ⟨bytes', y', k1, -, k2, k3, -⟩ := C62_ciphertext hb h h32 hy
  rw [h1, k1, Option.some_inj] at e
  subst e
  rw [h2, Res.ok_inj] at k2
  subst k2
  exact C75_equivalence.1.trans (C75_equivalence.1.symm h3) k3

/-- C82: two secret keys are written as the same bytes exactly if they are equal. -/
theorem C82_secret_key (hb : b.OK) (h : build b st = Res.ok par.toBfvParameters) {k k' : SecretKey} (hk : k.par = par ∧ k.coeffs.length = par.degree ∧ ∀ x ∈ k.coeffs, -2 ^ 63 ≤ x ∧ x < 2 ^ 63)
    (hk' : k'.par = par ∧ k'.coeffs.length = par.degree ∧ ∀ x ∈ k'.coeffs, -2 ^ 63 ≤ x ∧ x < 2 ^ 63) : k.toBytes = k'.toBytes ↔ k = k' := by
  refine ⟨fun e => ?_, fun e => by rw [e]⟩
  have h1 := (C62_secret_key hb h hk.1 hk.2.1 hk.2.2).2
  rw [e, (C62_secret_key hb h hk'.1 hk'.2.1 hk'.2.2).2, Res.ok_inj] at h1
  exact h1.symm

/-- C82: two public keys are written as the same bytes exactly if they are equal. -/
theorem C82_public_key (hb : b.OK) (h : build b st = Res.ok par.toBfvParameters) (hm : par.moduli.length ≤ 1024) {k k' : PublicKey}
    (hk : k.par = par ∧ k.c.WellFormed g par ∧ k.c.level = 0 ∧ k.c.c.length = 2) (hk' : k'.par = par ∧ k'.c.WellFormed g par ∧ k'.c.level = 0 ∧ k'.c.c.length = 2) :
    k.toBytes = k'.toBytes ↔ k.beq k' = true := by
  obtain ⟨a1, a2, a3, a4⟩ := hk
  obtain ⟨b1, b2, b3, b4⟩ := hk'
  refine ⟨fun e => ?_, fun e => (C75_bytes (g := g) (g' := g) hb h).2.1 k k' ⟨a2.par_eq, a2.level, a2.parts, a2.valid⟩ ⟨b2.par_eq, b2.level, b2.parts, b2.valid⟩ e⟩
  obtain ⟨bytes, x', h1, -, h2, -, h3⟩ := C62_public_key hb h hm a1 a2 a3 a4
  obtain ⟨bytes', y', k1, -, k2, -, k3⟩ := C62_public_key hb h hm b1 b2 b3 b4
  rw [h1, k1, Option.some_inj] at e
  subst e
  rw [h2, Res.ok_inj] at k2
  subst k2
  unfold PublicKey.beq
  rw [a1, b1, C75_equivalence.1.trans (C75_equivalence.1.symm h3) k3]
  simp

/-- C82: two relinearization keys are written as the same bytes exactly if they are equal. -/
theorem C82_relin (hb : b.OK) (h : build b st = Res.ok par.toBfvParameters) (hm : par.moduli.length ≤ 1024) {k k' : RelinearizationKey} (hk : k.ksk.WellFormed g par) (hk' : k'.ksk.WellFormed g par) :
    k.toBytes = k'.toBytes ↔ k.beq k' = true := by
  refine ⟨fun e => ?_, fun e => (C75_bytes (g := g) (g' := g) hb h).2.2.1 k k' hk hk' e⟩
  obtain ⟨bytes, x', h1, -, h2, h3, -⟩ := C62_relin hb h hm hk
  obtain ⟨bytes', y', k1, -, k2, k3, -⟩ := C62_relin hb h hm hk'
  rw [h1, k1, Option.some_inj] at e
  subst e
  rw [h2, Res.ok_inj] at k2
  subst k2
  exact C75_equivalence.2.2.1.trans (C75_equivalence.2.2.1.symm (x := x') (y := k) h3) k3

theorem evaluation_beq (hb : b.OK) (h : build b st = Res.ok par.toBfvParameters) {k k' : EvaluationKey} (hk : k.WellFormed b g par) (hk' : k'.WellFormed b g' par) (h1 : k.ciphertextLevel = k'.ciphertextLevel)
    (h2 : k.keyLevel = k'.keyLevel) (h3 : ∀ x, Option.Rel (fun y y' : GaloisKey => y.beq y' = true) (k.gk.lookup x) (k'.gk.lookup x)) : k.beq k' = true := by
  obtain ⟨n, hw, -⟩ := build_inv hb h
  have hkeys : ∀ {m : List (Nat × GaloisKey)} {x : Nat}, x ∈ m.map Prod.fst ↔ ∃ v, m.lookup x = some v := fun {m x} =>
    ⟨lookup_isSome_of_mem, fun ⟨v, hv⟩ => List.mem_map.2 ⟨(x, v), mem_of_lookup hv, rfl⟩⟩
  have hperm : (k.gk.map Prod.fst).Perm (k'.gk.map Prod.fst) := (List.perm_ext_iff_of_nodup hk.nodup hk'.nodup).2 fun x => by
    rw [hkeys, hkeys]
    have := h3 x
    cases e : k.gk.lookup x with
    | none => cases e' : k'.gk.lookup x with
      | none => simp
      | some _ => rw [e, e'] at this; cases this
    | some _ => cases e' : k'.gk.lookup x with
      | none => rw [e, e'] at this; cases this
      | some _ => simp
  have hlen : k.gk.length = k'.gk.length := by simpa using hperm.length_eq
  have hr : k.rot = k'.rot := Option.some_inj.1 (hk.rot.symm.trans hk'.rot)
  obtain ⟨c, m1, m2⟩ := hk.monomials
  obtain ⟨c', m1', m2'⟩ := hk'.monomials
  rw [h1, m1', Res.ok_inj] at m1
  subst m1
  rw [m2', Res.ok_inj] at m2
  have hnd : ∀ {α : Type} (eq : α → α → Bool) {m m' : List (Nat × α)}, (m.map Prod.fst).Nodup → m.length = m'.length → (∀ x v, m.lookup x = some v → ∃ v', m'.lookup x = some v' ∧ eq v v' = true) → mapBeq eq m m' = true := by
    intro α eq m m' hn hl he
    unfold mapBeq
    rw [Bool.and_eq_true, decide_eq_true_eq, List.all_eq_true]
    refine ⟨hl, fun x hx => ?_⟩
    obtain ⟨v', e1, e2⟩ := he x.1 x.2 (lookup_of_mem hn hx)
    rw [e1]; exact e2
  unfold EvaluationKey.beq
  simp only [Bool.and_eq_true, decide_eq_true_eq]
  refine ⟨⟨⟨⟨⟨by rw [hk.par_eq, hk'.par_eq], h1⟩, h2⟩, hnd _ hk.nodup hlen fun x v hv => ?_⟩, ?_⟩, ?_⟩
  · have := h3 x
    rw [hv] at this
    cases e' : k'.gk.lookup x with
    | none => rw [e'] at this; cases this
    | some v' => rw [e'] at this; cases this with | some e => exact ⟨v', rfl, e⟩
  · rw [hr]
    refine hnd _ ?_ rfl fun x v hv => ⟨v, hv, by simp⟩
    have := hk'.rot
    rw [EvaluationKey.constructRot_eq hw, Option.some.injEq] at this
    rw [← this, List.map_map]
    exact List.nodup_range.map fun a b e => by simpa using e
  · rw [m2]
    unfold vecBeq
    simp only [decide_true, Bool.true_and]
    generalize k.monomials = ms
    induction ms with
    | nil => rfl
    | cons p ms ih => rw [List.zip_cons_cons, List.all_cons, ih, beq_iff.2 rfl]; rfl

theorem galois_beq (hb : b.OK) (h : build b st = Res.ok par.toBfvParameters) (h32 : par.moduli.length ≤ 2 ^ 32) {k k' : GaloisKey} (hk : k.WellFormed g par) (hk' : k'.WellFormed g par) :
    k.toMsg = k'.toMsg ↔ k.beq k' = true := by
  refine ⟨fun e => ?_, fun e => (C75_bytes (g := g) (g' := g) hb h).2.2.2.1 k k' hk hk' e⟩
  obtain ⟨msg, x', h1, h2, h3, h4, -⟩ := C55_galois_roundtrip hb h h32 hk
  obtain ⟨msg', y', k1, k2, k3, k4, -⟩ := C55_galois_roundtrip hb h h32 hk'
  rw [h1, k1, Option.some_inj] at e
  subst e
  rw [h2, Res.ok_inj] at k2
  subst k2
  have e1 : x'.beq k = true := by unfold GaloisKey.beq; rw [h3, h4]; simp
  have e2 : x'.beq k' = true := by unfold GaloisKey.beq; rw [k3, k4]; simp
  exact C75_equivalence.2.2.2.1.trans (C75_equivalence.2.2.2.1.symm e1) e2

/-- C82: two evaluation keys are equal exactly if their messages are the same up to the order of the Galois keys; so they are equal if they are written as the same bytes. -/
theorem C82_evaluation (hb : b.OK) (h : build b st = Res.ok par.toBfvParameters) (hm : par.moduli.length ≤ 1024) {k k' : EvaluationKey} (hk : k.WellFormed b g par) (hk' : k'.WellFormed b g par) :
    (k.toBytes = k'.toBytes → k.beq k' = true) ∧
    (k.beq k' = true ↔ ∃ msg msg', k.toMsg = some msg ∧ k'.toMsg = some msg' ∧ msg.gk.Perm msg'.gk ∧ msg.ciphertextLevel = msg'.ciphertextLevel ∧ msg.keyLevel = msg'.keyLevel) := by
  obtain ⟨n, hw, -⟩ := build_inv hb h
  have h32 : par.moduli.length ≤ 2 ^ 32 := by omega
  have hG := C75_equivalence.2.2.2.1
  constructor
  · intro e
    obtain ⟨bytes, x', h1, -, h2, -, h3, h4, -, -, h5, -⟩ := C62_evaluation hb h hm hk
    obtain ⟨bytes', y', k1, -, k2, -, k3, k4, -, -, k5, -⟩ := C62_evaluation hb h hm hk'
    rw [h1, k1, Option.some_inj] at e
    subst e
    rw [h2, Res.ok_inj] at k2
    subst k2
    refine evaluation_beq hb h hk hk' (h3.symm.trans k3) (h4.symm.trans k4) fun x => ?_
    rcases h5 x with ⟨a1, a2⟩ | ⟨y, y', a1, a2, a3, a4⟩
    · rcases k5 x with ⟨c1, c2⟩ | ⟨z, z', c1, c2, -⟩
      · rw [a2, c2]; exact .none
      · rw [c2] at a1; cases a1
    · rcases k5 x with ⟨c1, c2⟩ | ⟨z, z', c1, c2, c3, c4⟩
      · rw [c1] at a2; cases a2
      · rw [c2, Option.some_inj] at a2
        subst a2
        rw [a1, c1]
        have e1 : z'.beq y = true := by unfold GaloisKey.beq; rw [a3, a4]; simp
        have e2 : z'.beq z = true := by unfold GaloisKey.beq; rw [c3, c4]; simp
        exact .some (hG.trans (hG.symm e1) e2)
  · have hmsg : ∀ {k : EvaluationKey}, k.WellFormed b g par → ∃ l, k.toMsg = some ⟨l, k.ciphertextLevel % 2 ^ 32, k.keyLevel % 2 ^ 32⟩ ∧ List.Forall₂ (fun x z => x.2.toMsg = some z) k.gk l := by
      intro k hk
      obtain ⟨msg, -, e1, -⟩ := EvaluationKey.roundtrip_eq hw hk h32
      unfold EvaluationKey.toMsg at e1 ⊢
      cases hl : k.gk.mapM fun x => x.2.toMsg with
      | none => rw [hl] at e1; cases e1
      | some l =>
        refine ⟨l, rfl, ?_⟩
        exact mapM_some_inv hl
    obtain ⟨l, e1, e2⟩ := hmsg hk
    obtain ⟨l', e1', e2'⟩ := hmsg hk'
    have hwf : ∀ {k : EvaluationKey}, k.WellFormed b g par → ∀ x ∈ k.gk, x.2.WellFormed g par ∧ x.2.element.exponent = x.1 := fun hk x hx =>
      ⟨(hk.gk x.1 x.2 (lookup_of_mem hk.nodup hx)).1, (hk.gk x.1 x.2 (lookup_of_mem hk.nodup hx)).2.1⟩
    have hmem : ∀ {m : List (Nat × GaloisKey)} {l : List (Nat × Option KeySwitchingKeyMsg)}, List.Forall₂ (fun x z => x.2.toMsg = some z) m l → ∀ z, z ∈ l ↔ ∃ x ∈ m, x.2.toMsg = some z := by
      intro m l hf
      induction hf with
      | nil => simp
      | cons h1 _ ih =>
        intro z
        rw [List.mem_cons, ih]
        constructor
        · rintro (rfl | ⟨x, hx, e⟩)
          · exact ⟨_, List.mem_cons_self .., h1⟩
          · exact ⟨x, List.mem_cons_of_mem _ hx, e⟩
        · rintro ⟨x, hx, e⟩
          rcases List.mem_cons.1 hx with rfl | hx
          · rw [h1, Option.some_inj] at e; exact .inl e.symm
          · exact .inr ⟨x, hx, e⟩
    have hel : ∀ {y y' : GaloisKey}, y.beq y' = true → y.element = y'.element := by
      intro y y' e
      unfold GaloisKey.beq at e
      rw [Bool.and_eq_true, decide_eq_true_eq] at e
      exact e.1
    have hnd : ∀ {k : EvaluationKey} {l : List (Nat × Option KeySwitchingKeyMsg)}, k.WellFormed b g par → List.Forall₂ (fun x z => x.2.toMsg = some z) k.gk l → l.Nodup := by
      intro k l hk hf
      have hn := hk.nodup
      have hw' := hwf hk
      revert hn hw'
      generalize k.gk = m at hf
      induction hf with
      | nil => exact fun _ _ => List.nodup_nil
      | @cons x z m l h1 h2 ih =>
        intro hn hw'
        rw [List.map_cons, List.nodup_cons] at hn
        rw [List.nodup_cons]
        refine ⟨fun hz => hn.1 ?_, ih hn.2 fun y hy => hw' y (List.mem_cons_of_mem _ hy)⟩
        obtain ⟨y, hy, e⟩ := (hmem h2 z).1 hz
        have a1 := hw' x (List.mem_cons_self ..)
        have a2 := hw' y (List.mem_cons_of_mem _ hy)
        have a3 := hel ((galois_beq hb h h32 a1.1 a2.1).1 (h1.trans e.symm))
        exact List.mem_map.2 ⟨y, hy, by rw [← a1.2, ← a2.2, a3]⟩
    constructor
    · intro e
      have ha := e
      unfold EvaluationKey.beq at ha
      simp only [Bool.and_eq_true, decide_eq_true_eq] at ha
      obtain ⟨⟨⟨⟨⟨-, h1⟩, h2⟩, h3⟩, -⟩, -⟩ := ha
      refine ⟨_, _, e1, e1', (List.perm_ext_iff_of_nodup (hnd hk e2) (hnd hk' e2')).2 fun z => ?_, by simp only [h1], by simp only [h2]⟩
      have hrel := lookup_of_mapBeq hk.nodup h3
      rw [hmem e2, hmem e2']
      constructor
      · rintro ⟨x, hx, e⟩
        have := hrel x.1
        rw [lookup_of_mem hk.nodup hx] at this
        cases hy : k'.gk.lookup x.1 with
        | none => rw [hy] at this; cases this
        | some y =>
          rw [hy] at this
          cases this with
          | some this =>
            have hy := mem_of_lookup hy
            exact ⟨_, hy, ((galois_beq hb h h32 (hwf hk x hx).1 (hwf hk' _ hy).1).2 this).symm.trans e⟩
      · rintro ⟨x, hx, e⟩
        have := hrel x.1
        rw [lookup_of_mem hk'.nodup hx] at this
        cases hy : k.gk.lookup x.1 with
        | none => rw [hy] at this; cases this
        | some y =>
          rw [hy] at this
          cases this with
          | some this =>
            have hy := mem_of_lookup hy
            exact ⟨_, hy, ((galois_beq hb h h32 (hwf hk _ hy).1 (hwf hk' x hx).1).2 this).trans e⟩
    · rintro ⟨msg, msg', f1, f1', f2, f3, f4⟩
      rw [e1, Option.some_inj] at f1
      rw [e1', Option.some_inj] at f1'
      subst f1 f1'
      simp only [] at f2 f3 f4
      have hc : ∀ {k : EvaluationKey}, k.WellFormed b g par → k.ciphertextLevel < 2 ^ 32 ∧ k.keyLevel < 2 ^ 32 := fun hk => ⟨by have := hk.lt; omega, hk.key⟩
      have c1 := hc hk
      have c2 := hc hk'
      refine evaluation_beq hb h hk hk' (by omega) (by omega) fun x => ?_
      have half : ∀ {k k' : EvaluationKey} {l l' : List (Nat × Option KeySwitchingKeyMsg)}, k.WellFormed b g par → k'.WellFormed b g par → List.Forall₂ (fun x z => x.2.toMsg = some z) k.gk l →
          List.Forall₂ (fun x z => x.2.toMsg = some z) k'.gk l' → (∀ z ∈ l, z ∈ l') → ∀ y, k.gk.lookup x = some y → ∃ y', k'.gk.lookup x = some y' ∧ y.beq y' = true := by
        intro k k' l l' hk hk' e2 e2' hsub y hy
        obtain ⟨msg, -, q1, -⟩ := C55_galois_roundtrip hb h h32 (hk.gk x y hy).1
        obtain ⟨z, hz, q2⟩ := (hmem e2' msg).1 (hsub _ ((hmem e2 msg).2 ⟨_, mem_of_lookup hy, q1⟩))
        have q3 := (galois_beq hb h h32 (hk.gk x y hy).1 (hwf hk' z hz).1).1 (q1.trans q2.symm)
        have q4 : x = z.1 := by rw [← (hk.gk x y hy).2.1, ← (hwf hk' z hz).2, hel q3]
        exact ⟨z.2, by rw [q4]; exact lookup_of_mem hk'.nodup hz, q3⟩
      cases hy : k.gk.lookup x with
      | none =>
        cases hy' : k'.gk.lookup x with
        | none => exact .none
        | some y' =>
          obtain ⟨y, q, -⟩ := half hk' hk e2' e2 (fun z hz => f2.mem_iff.2 hz) y' hy'
          rw [hy] at q; cases q
      | some y =>
        obtain ⟨y', q, e⟩ := half hk hk' e2 e2' (fun z hz => f2.mem_iff.1 hz) y hy
        rw [q]; exact .some e

/-- C82: two RGSW ciphertexts are written as the same bytes exactly if they are equal. -/
theorem C82_rgsw (hb : b.OK) (h : build b st = Res.ok par.toBfvParameters) (hm : par.moduli.length ≤ 1024) {k k' : RgswCiphertext} (hk : k.WellFormed g par) (hk' : k'.WellFormed g par) :
    k.toBytes = k'.toBytes ↔ k.beq k' = true := by
  refine ⟨fun e => ?_, fun e => (C75_bytes (g := g) (g' := g) hb h).2.2.2.2 k k' hk hk' e⟩
  obtain ⟨bytes, x', h1, -, h2, h3, h4, -⟩ := C62_rgsw hb h hm hk
  obtain ⟨bytes', y', k1, -, k2, k3, k4, -⟩ := C62_rgsw hb h hm hk'
  rw [h1, k1, Option.some_inj] at e
  subst e
  rw [h2, Res.ok_inj] at k2
  subst k2
  have e1 : x'.beq k = true := by unfold RgswCiphertext.beq; rw [h3, h4]; rfl
  have e2 : x'.beq k' = true := by unfold RgswCiphertext.beq; rw [k3, k4]; rfl
  exact C75_equivalence.2.2.2.2.trans (C75_equivalence.2.2.2.2.symm e1) e2

/-- C82: parameters are written as the same bytes only if they are the same. -/
theorem C82_parameters (hb : b.OK) {par par' : BfvParameters} (h : build b st = Res.ok par) (h' : build b st' = Res.ok par') (hl : par.toBytes.length < 2 ^ 64) :
    par.toBytes = par'.toBytes ↔ par = par' := by
  refine ⟨fun e => ?_, fun e => by rw [e]⟩
  have h1 := (C62_parameters hb h hl).2
  rw [e, (C62_parameters hb h' (e ▸ hl)).2, Res.ok_inj] at h1
  exact h1.symm

/-- C82: bytes that were accepted and the bytes that are written for what was read identify the same object: two byte strings that are accepted as ciphertexts are read as equal ciphertexts exactly if
what is written for them is the same. -/
theorem C82_accepted (hb : b.OK) (h : build b st = Res.ok par.toBfvParameters) (hg : g.OK) (h32 : par.moduli.length ≤ 2 ^ 32) {bytes bytes' : List Nat} (hbytes : IsBytes bytes) (hbytes' : IsBytes bytes')
    {x y : Ciphertext} (hx : Ciphertext.fromBytes g bytes par = Res.ok x) (hy : Ciphertext.fromBytes g bytes' par = Res.ok y) :
    (∃ w x', x.toBytes = some w ∧ Ciphertext.fromBytes g w par = Res.ok x' ∧ x'.beq x = true ∧ x'.toBytes = some w) ∧ (x.beq y = true ↔ x.toBytes = y.toBytes) := by
  have hx' := (C62_ciphertext_any hb h hg hbytes).2 x hx
  have hy' := (C62_ciphertext_any hb h hg hbytes').2 y hy
  refine ⟨?_, (C82_ciphertext hb h h32 hx' hy').symm⟩
  obtain ⟨w, x', h1, h0, h2, h3, h4⟩ := C62_ciphertext hb h h32 hx'
  refine ⟨w, x', h1, h2, h3, ?_⟩
  have hu : x'.Usable par := by
    obtain ⟨-, -, e3, e4⟩ := cipherBeq_iff.1 h3
    refine ⟨h4, e3 ▸ hx'.level, ?_, fun p hp => ?_⟩
    · have := congrArg List.length e4
      simp only [List.length_map] at this
      rw [this]; exact hx'.parts
    · have : ({ p with vt := false } : Poly .ntt) ∈ x.c.map fun p => ({ p with vt := false } : Poly .ntt) := e4 ▸ List.mem_map.2 ⟨p, hp, rfl⟩
      obtain ⟨q, hq, e⟩ := List.mem_map.1 this
      obtain ⟨v1, v2⟩ := hx'.valid q hq
      obtain ⟨c1, l1, t1, r1, s1⟩ := p
      obtain ⟨c2, l2, t2, r2, s2⟩ := q
      simp only [Poly.mk.injEq] at e
      obtain ⟨rfl, rfl, -, rfl, rfl⟩ := e
      exact ⟨⟨v1.notLazy, v1.rows, v1.columns, v1.reduced, v1.shoup⟩, e3 ▸ v2⟩
  rw [← h1]
  exact (C75_bytes (g := g) (g' := g) hb h).1 x' x hu ⟨hx'.par_eq, hx'.level, hx'.parts, hx'.valid⟩ h3

/-! ## Examples -/

/-- Encryptions of two messages are well formed and are written as different bytes; with other flags the first is another value, but it is written as the same bytes. -/
example : ∃ (par : Par) (s : IntPoly par.degree) (m m' : par.Msg) (v v' : IntPoly par.degree) (x y z : Ciphertext), build luckyBuild exBuilder = Res.ok par.toBfvParameters ∧ x.WellFormed exPrg par ∧
    y.WellFormed exPrg par ∧ z.WellFormed exPrg par ∧ x.Encrypts par s 0 m v ∧ y.Encrypts par s 0 m' v' ∧ m ≠ m' ∧ x.toBytes ≠ y.toBytes ∧ x ≠ z ∧ x.toBytes = z.toBytes := by
  obtain ⟨par, sk, s, pt, pt', m, m', ct, ct', v, v', h, hd, ht, hm, hrel, hk, hs, e2, e2', em, em', f1, f1', f2, f2', f3, f3', f4, f4', f5, f6, h0, hvar⟩ := exCipher
  have hb := luckyBuild_ok
  have h32 : par.moduli.length ≤ 2 ^ 32 := by rw [hm]; decide
  obtain ⟨n, hw, -⟩ := build_inv hb h
  obtain ⟨x, _, g1, -, -, -, g2, -⟩ := C37_encrypt hb h hk exPrg_ok (by rw [h0, ht]; decide) e2 (seed := List.replicate 32 7) rfl exRng_ok
  obtain ⟨y, _, g1', -, -, -, g2', g3'⟩ := C37_encrypt hb h hk exPrg_ok (by rw [h0, ht]; decide) e2' (seed := List.replicate 32 9) rfl exRng_ok
  rw [f1, Res.ok_inj] at g1
  rw [f1', Res.ok_inj] at g1'
  subst g1 g1'
  obtain ⟨q1, q2⟩ := C75_flags (f2.usable hw) fun p => !p.vt
  have hz : ({ ct with c := ct.c.map fun p => { p with vt := !p.vt } } : Ciphertext).WellFormed exPrg par := by
    refine ⟨q1.par_eq, q1.level, q1.parts, q1.valid, fun seed hs => ⟨(f6.seed seed hs).1, fun last hl => ?_⟩⟩
    simp only [List.getLast?_map, Option.map_eq_some_iff] at hl
    obtain ⟨p, hp, rfl⟩ := hl
    obtain ⟨p', a1, a2⟩ := (f6.seed seed hs).2 p hp
    exact ⟨p', a1, by rw [beq_iff] at a2 ⊢; exact a2⟩
  refine ⟨par, s, m, m', v, v', ct, ct', _, h, f6, g3', hz, f2, f2', fun e => ?_, fun e => ?_, fun e => ?_, (C82_ciphertext hb h h32 f6 hz).2 (C75_equivalence.1.symm q2)⟩
  · rw [e, em'] at em; simp at em
  · have := (cipherBeq_iff.1 ((C82_ciphertext hb h h32 f6 g3').1 e)).2.1
    rw [g2, g2'] at this
    simp [List.replicate] at this
  · have := congrArg Ciphertext.c e
    simp only [] at this
    match hc : ct.c with
    | [] => rw [hc] at f4; cases f4
    | p :: ps =>
      rw [hc, List.map_cons, List.cons.injEq] at this
      have := congrArg Poly.vt this.1
      simp at this

end Fhe.Props
