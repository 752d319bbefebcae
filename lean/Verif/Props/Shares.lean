import Verif.Lemmas.Shares
import Verif.Props.Mbfv
import Verif.Lemmas.Laws
import Verif.Lemmas.BfvMultiplicator
import Verif.Lemmas.Robust
import Verif.Props.BfvCipher
/-!
# The order in which the shares of the parties arrive
-/
namespace Fhe.Props
open Nega ParamsBuilder Ciphertext Poly

variable {b : Build} {st : ParamsBuilder} {par : Par} {c : Context} {i : Nat}

theorem cons_perm {α : Type} {l l' : List α} (hp : l.Perm l') (hne : l ≠ []) : ∃ a t a' t', l = a :: t ∧ l' = a' :: t' := by
  obtain ⟨a, t, rfl⟩ := List.exists_cons_of_ne_nil hne
  obtain ⟨a', t', rfl⟩ := List.exists_cons_of_ne_nil (fun h : l' = [] => by subst h; exact absurd hp.eq_nil (by simp))
  exact ⟨a, t, a', t', rfl, rfl⟩

/-- C70: a public key does not depend on the order of the shares. -/
theorem C70_public_key (hb : b.OK) (h : build b st = Res.ok par.toBfvParameters) (hc : par.contextAtLevel 0 = Res.ok c) {crp : CommonRandomPoly} (hcrp : crp.poly.ctx = c)
    {l l' : List PublicKeyShare} (hl : ∀ x ∈ l, x.par = par ∧ x.crp = crp ∧ x.p0Share.Valid ∧ x.p0Share.ctx = c) (hne : l ≠ []) (hp : l.Perm l') :
    ∃ pk, PublicKeyShare.aggregate l = Res.ok pk ∧ PublicKeyShare.aggregate l' = Res.ok pk := by
  obtain ⟨n, hw, -⟩ := build_inv hb h
  obtain ⟨lv, hlv, rfl⟩ := ParWF.contextAtLevel_iff.1 hc
  have ha := AtLevel.ofGet hw hlv
  obtain ⟨a, t, a', t', rfl, rfl⟩ := cons_perm hp hne
  obtain ⟨p, e1, e2, e3⟩ := foldlM_perm (N := par.degree) ha.wf ha.deg (f := PublicKeyShare.p0Share) (fun x hx => (hl x hx).2.2) hp
  obtain ⟨q1, q2, -⟩ := hl a (by simp)
  obtain ⟨q1', q2', -⟩ := hl a' (hp.mem_iff.2 (by simp))
  refine ⟨⟨par, ⟨par, none, [p, crp.poly], 0⟩⟩, ?_, ?_⟩ <;> unfold PublicKeyShare.aggregate <;> simp only []
  · rw [e1, Res.lift_some, Res.ok_bind, q1, q2, Ciphertext.new_two ha e3 hcrp, Res.ok_bind]; rfl
  · rw [e2, Res.lift_some, Res.ok_bind, q1', q2', Ciphertext.new_two ha e3 hcrp, Res.ok_bind]; rfl

/-- C70: a ciphertext switched to another shared key does not depend on the order of the shares. -/
theorem C70_secret_switch (hb : b.OK) (h : build b st = Res.ok par.toBfvParameters) {ct : Ciphertext} (hct : ct.Usable par) (hc : par.contextAtLevel ct.level = Res.ok c)
    {l l' : List SecretKeySwitchShare} (hl : ∀ x ∈ l, x.par = par ∧ x.ct = ct ∧ x.hShare.Valid ∧ x.hShare.ctx = c) (hne : l ≠ []) (hp : l.Perm l') :
    ∃ r, SecretKeySwitchShare.aggregate l = Res.ok r ∧ SecretKeySwitchShare.aggregate l' = Res.ok r := by
  obtain ⟨n, hw, -⟩ := build_inv hb h
  obtain ⟨lv, hlv, rfl⟩ := ParWF.contextAtLevel_iff.1 hc
  have ha := AtLevel.ofGet hw hlv
  obtain ⟨a, t, a', t', rfl, rfl⟩ := cons_perm hp hne
  obtain ⟨F, hF⟩ := exists_reps (N := par.degree) ha.wf ha.deg (f := SecretKeySwitchShare.hShare) fun x hx => (hl x hx).2.2
  have e1 := foldlM_cons_reps ha.wf ha.deg hF
  have e2 := foldlM_cons_reps ha.wf ha.deg fun x hx => hF x (hp.mem_iff.2 hx)
  rw [← perm_all hp, ← (hp.map F).sum_eq] at e2
  obtain ⟨q1, q2, -⟩ := hl a (by simp)
  obtain ⟨q1', q2', -⟩ := hl a' (hp.mem_iff.2 (by simp))
  have hctx : ∀ p ∈ ct.c, p.Valid ∧ p.ctx = lv.ctx := fun p hp => by
    have := (hct.valid p hp).2
    rw [ha.contextAt, Res.ok_inj] at this
    exact ⟨(hct.valid p hp).1, this.symm⟩
  have h2 := hct.parts
  match hcc : ct.c, h2, hctx with
  | p0 :: p1 :: ps, _, hctx =>
    obtain ⟨v0, v1⟩ := hctx p0 (by simp)
    obtain ⟨v2, v3⟩ := hctx p1 (by simp)
    obtain ⟨f0, g0, -⟩ := exists_encI (N := par.degree) ha.wf ha.deg v1 v0
    have e3 := addAssign_encI (r := .ntt) (vt := p0.vt) (vt' := (a :: t).all fun a => a.hShare.vt) ha.wf ha.deg (by simp) f0 (((a :: t).map F).sum)
    rw [← g0] at e3
    refine ⟨⟨par, none, [encI lv.ctx .ntt (p0.vt && (a :: t).all fun a => a.hShare.vt) (f0 + ((a :: t).map F).sum), p1], ct.level⟩, ?_, ?_⟩
    rotate_left
    · unfold SecretKeySwitchShare.aggregate
      simp only []
      rw [e2, Res.lift_some, Res.ok_bind, q2', hcc, List.getElem?_cons_zero, Res.lift_some, Res.ok_bind, e3, Res.lift_some, Res.ok_bind, List.getElem?_cons_succ, List.getElem?_cons_zero,
        Res.lift_some, Res.ok_bind, q1', Ciphertext.new_two ha rfl v3]
    · unfold SecretKeySwitchShare.aggregate
      simp only []
      rw [e1, Res.lift_some, Res.ok_bind, q2, hcc, List.getElem?_cons_zero, Res.lift_some, Res.ok_bind, e3, Res.lift_some, Res.ok_bind, List.getElem?_cons_succ, List.getElem?_cons_zero,
        Res.lift_some, Res.ok_bind, q1, Ciphertext.new_two ha rfl v3]

/-- C70: the decrypted plaintext does not depend on the order of the shares. -/
theorem C70_decryption (hb : b.OK) (h : build b st = Res.ok par.toBfvParameters) {ct : Ciphertext} (hct : ct.Usable par) (hc : par.contextAtLevel ct.level = Res.ok c)
    {l l' : List DecryptionShare} (hl : ∀ x ∈ l, x.sksShare.par = par ∧ x.sksShare.ct = ct ∧ x.sksShare.hShare.Valid ∧ x.sksShare.hShare.ctx = c) (hp : l.Perm l') :
    DecryptionShare.aggregate l = DecryptionShare.aggregate l' := by
  by_cases hne : l = []
  · subst hne; rw [hp.symm.eq_nil]
  obtain ⟨r, e1, e2⟩ := C70_secret_switch hb h hct hc (l := l.map DecryptionShare.sksShare) (l' := l'.map DecryptionShare.sksShare) (by
    intro x hx
    obtain ⟨y, hy, rfl⟩ := List.mem_map.1 hx
    exact hl y hy) (by simpa using hne) (hp.map _)
  unfold DecryptionShare.aggregate
  rw [e1, e2]

/-- C70: a ciphertext switched to a public key does not depend on the order of the shares. -/
theorem C70_public_switch (hb : b.OK) (h : build b st = Res.ok par.toBfvParameters) (hc : par.contextAtLevel i = Res.ok c) {c0 : Poly .ntt} (hc0 : c0.Valid ∧ c0.ctx = c)
    {l l' : List PublicKeySwitchShare} (hl : ∀ x ∈ l, x.par = par ∧ x.c0 = c0 ∧ (x.h0Share.Valid ∧ x.h0Share.ctx = c) ∧ x.h1Share.Valid ∧ x.h1Share.ctx = c) (hne : l ≠ []) (hp : l.Perm l') :
    ∃ r, PublicKeySwitchShare.aggregate l = Res.ok r ∧ PublicKeySwitchShare.aggregate l' = Res.ok r := by
  obtain ⟨n, hw, -⟩ := build_inv hb h
  obtain ⟨lv, hlv, rfl⟩ := ParWF.contextAtLevel_iff.1 hc
  have ha := AtLevel.ofGet hw hlv
  obtain ⟨a, t, a', t', rfl, rfl⟩ := cons_perm hp hne
  have pair : ∀ (t : List PublicKeySwitchShare) (p q p' q' : Poly .ntt), t.foldlM (fun p (x : PublicKeySwitchShare) => p.addAssign x.h0Share) p = some p' →
      t.foldlM (fun p (x : PublicKeySwitchShare) => p.addAssign x.h1Share) q = some q' →
      t.foldlM (fun (h : Poly .ntt × Poly .ntt) sh => do return (← h.1.addAssign sh.h0Share, ← h.2.addAssign sh.h1Share)) (p, q) = some (p', q') := by
    intro t
    induction t with
    | nil => intro p q p' q' e1 e2; simp at e1 e2; simp [e1, e2]
    | cons x t ih =>
      intro p q p' q' e1 e2
      rw [List.foldlM_cons] at e1 e2 ⊢
      obtain ⟨p1, g1, g2⟩ := Option.bind_eq_some_iff.1 e1
      obtain ⟨q1, g3, g4⟩ := Option.bind_eq_some_iff.1 e2
      simp only [g1, g3, Option.bind_eq_bind, Option.bind_some]
      exact ih p1 q1 p' q' g2 g4
  obtain ⟨F, hF⟩ := exists_reps (N := par.degree) ha.wf ha.deg (f := PublicKeySwitchShare.h0Share) fun x hx => (hl x hx).2.2.1
  obtain ⟨q, k1, k2, k3⟩ := foldlM_perm (N := par.degree) ha.wf ha.deg (f := PublicKeySwitchShare.h1Share) (fun x hx => (hl x hx).2.2.2) hp
  have e1 := foldlM_cons_reps ha.wf ha.deg hF
  have e2 := foldlM_cons_reps ha.wf ha.deg fun x hx => hF x (hp.mem_iff.2 hx)
  rw [← perm_all hp, ← (hp.map F).sum_eq] at e2
  obtain ⟨q1, q2, -⟩ := hl a (by simp)
  obtain ⟨q1', q2', -⟩ := hl a' (hp.mem_iff.2 (by simp))
  obtain ⟨f0, g0, -⟩ := exists_encI (N := par.degree) ha.wf ha.deg hc0.2 hc0.1
  have e3 := addAssign_encI (r := .ntt) (vt := c0.vt) (vt' := (a :: t).all fun a => a.h0Share.vt) ha.wf ha.deg (by simp) f0 (((a :: t).map F).sum)
  rw [← g0] at e3
  refine ⟨⟨par, none, [encI lv.ctx .ntt (c0.vt && (a :: t).all fun a => a.h0Share.vt) (f0 + ((a :: t).map F).sum), q], i⟩, ?_, ?_⟩
  rotate_left
  · unfold PublicKeySwitchShare.aggregate
    simp only []
    rw [pair _ _ _ _ _ e2 k2, Res.lift_some, Res.ok_bind, q2', e3, Res.lift_some, Res.ok_bind, q1', Ciphertext.new_two ha rfl k3]
  · unfold PublicKeySwitchShare.aggregate
    simp only []
    rw [pair _ _ _ _ _ e1 k1, Res.lift_some, Res.ok_bind, q2, e3, Res.lift_some, Res.ok_bind, q1, Ciphertext.new_two ha rfl k3]

/-- C70: neither round of the generation of a relinearization key depends on the order of the shares. -/
theorem C70_relin (hb : b.OK) (h : build b st = Res.ok par.toBfvParameters) (hc : par.contextAtLevel 0 = Res.ok c) {m : Nat} :
    (∀ {l l' : List RelinKeyShare}, (∀ x ∈ l, x.par = par ∧ (x.h0.length = m ∧ ∀ p ∈ x.h0, p.Valid ∧ p.ctx = c) ∧ x.h1.length = m ∧ ∀ p ∈ x.h1, p.Valid ∧ p.ctx = c) → l ≠ [] → l.Perm l' →
      ∃ r, RelinKeyShare.aggregate l = Res.ok r ∧ RelinKeyShare.aggregate l' = Res.ok r) ∧
    ∀ {l l' : List RelinKeyShare2} {r1 : Option RelinKeyShare}, (∀ x ∈ l, x.par = par ∧ x.lastRound = r1 ∧ (x.h0.length = m ∧ ∀ p ∈ x.h0, p.Valid ∧ p.ctx = c) ∧ x.h1.length = m ∧
      ∀ p ∈ x.h1, p.Valid ∧ p.ctx = c) → l.Perm l' → RelinKeyShare2.aggregate l = RelinKeyShare2.aggregate l' := by
  obtain ⟨n, hw, -⟩ := build_inv hb h
  obtain ⟨lv, hlv, rfl⟩ := ParWF.contextAtLevel_iff.1 hc
  have ha := AtLevel.ofGet hw hlv
  refine ⟨fun {l l'} hl hne hp => ?_, fun {l l' r1} hl hp => ?_⟩
  · obtain ⟨a, t, a', t', rfl, rfl⟩ := cons_perm hp hne
    obtain ⟨r, e1, e2⟩ := fold_zipUpdate_perm (N := par.degree) ha.wf ha.deg (f := RelinKeyShare.h0) (g := RelinKeyShare.h1) (fun x hx => (hl x hx).2.1) (fun x hx => (hl x hx).2.2) hp
    obtain ⟨q1, -⟩ := hl a (by simp)
    obtain ⟨q1', -⟩ := hl a' (hp.mem_iff.2 (by simp))
    refine ⟨⟨par, r.1, r.2⟩, ?_, ?_⟩ <;> unfold RelinKeyShare.aggregate <;> simp only []
    · rw [e1, Res.lift_some, Res.ok_bind, q1]; rfl
    · rw [e2, Res.lift_some, Res.ok_bind, q1']; rfl
  · by_cases hne : l = []
    · subst hne; rw [hp.symm.eq_nil]
    obtain ⟨a, t, a', t', rfl, rfl⟩ := cons_perm hp hne
    obtain ⟨r, e1, e2⟩ := fold_addPairs_perm (N := par.degree) ha.wf ha.deg (f := RelinKeyShare2.h0) (g := RelinKeyShare2.h1) (fun x hx => (hl x hx).2.2.1) (fun x hx => (hl x hx).2.2.2) hp
    obtain ⟨q1, q2, -⟩ := hl a (by simp)
    obtain ⟨q1', q2', -⟩ := hl a' (hp.mem_iff.2 (by simp))
    unfold RelinKeyShare2.aggregate
    simp only []
    rw [e1, e2, q1, q2, q1', q2']

/-- C70: the shares the parties of a protocol make meet the hypotheses of the theorems above. -/
theorem C70_honest (hb : b.OK) (h : build b st = Res.ok par.toBfvParameters) {sk sk' : SecretKey} {s s' : IntPoly par.degree} (hk : sk.IsKey par s) (hk' : sk'.IsKey par s') {rng : Nat → Nat} (hr : IsStream rng) :
    (∀ {crp : CommonRandomPoly}, par.contextAtLevel 0 = Res.ok crp.poly.ctx → crp.poly.Valid →
      ∃ x, PublicKeyShare.new sk crp rng = Res.ok x ∧ x.par = par ∧ x.crp = crp ∧ x.p0Share.Valid ∧ x.p0Share.ctx = crp.poly.ctx) ∧
    ∀ {ct : Ciphertext}, ct.Usable par → ct.c.length = 2 → par.contextAtLevel ct.level = Res.ok c →
      ∃ x, SecretKeySwitchShare.new sk sk' ct rng = Res.ok x ∧ x.par = par ∧ x.ct = ct ∧ x.hShare.Valid ∧ x.hShare.ctx = c := by
  obtain ⟨n, hw, -⟩ := build_inv hb h
  refine ⟨fun {crp} hc hv => ?_, fun {ct} hct h2 hc => ?_⟩
  · obtain ⟨lv, hlv, hq⟩ := ParWF.contextAtLevel_iff.1 hc
    have ha := AtLevel.ofGet hw hlv
    obtain ⟨A, hA, -⟩ := exists_encI (N := par.degree) ha.wf ha.deg hq.symm hv
    obtain ⟨e, -, he⟩ := PublicKeyShare.new_eq hw ha hk hA hr
    exact ⟨_, he, rfl, rfl, valid_enc ha.wf _, hq⟩
  · obtain ⟨lv, hlv, rfl⟩ := ParWF.contextAtLevel_iff.1 hc
    have ha := AtLevel.ofGet hw hlv
    obtain ⟨F, hF, -, -⟩ := Usable.is hw hct ha
    obtain ⟨v0, v1, F0, F1, hcc, -⟩ := Multiplicator.two_parts hF.parts h2
    obtain ⟨e, -, he⟩ := SecretKeySwitchShare.new_eq hw ha hk hk' hF.par_eq hcc hr
    exact ⟨_, he, rfl, rfl, valid_enc ha.wf _, rfl⟩

/-- The hypotheses of the theorems above are met: two shares of different randomness that switch a ciphertext to another key. -/
example : ∃ (par : Par) (ct : Ciphertext) (c : Context) (x y : SecretKeySwitchShare) (sk sk' : SecretKey) (r : Ciphertext), build luckyBuild exBuilder = Res.ok par.toBfvParameters ∧ ct.Usable par ∧
    par.contextAtLevel ct.level = Res.ok c ∧ SecretKeySwitchShare.new sk sk' ct exRng = Res.ok x ∧ SecretKeySwitchShare.new sk' sk' ct (fun i => exRng (i + 1)) = Res.ok y ∧
    (∀ z ∈ [x, y], z.par = par ∧ z.ct = ct ∧ z.hShare.Valid ∧ z.hShare.ctx = c) ∧ SecretKeySwitchShare.aggregate [x, y] = Res.ok r ∧ SecretKeySwitchShare.aggregate [y, x] = Res.ok r := by
  obtain ⟨par, sk, s, pt, pt', m, m', ct, ct', v, v', h, hd, ht, hm, hrel, hk, hs, e2, e2', em, em', f1, f1', f2, f2', f3, f3', f4, f4', f5, f6, h0, hvar⟩ := exCipher
  obtain ⟨n, hw, -⟩ := build_inv luckyBuild_ok h
  have hu := Encrypts.usable hw f2
  obtain ⟨l, _, _, ha, -⟩ := f2.elim hw
  have hc : par.contextAtLevel ct.level = Res.ok l.ctx := by rw [f2.level_eq]; exact ha.contextAt
  have hr : IsStream fun i => exRng (i + 1) := fun i => exRng_ok (i + 1)
  obtain ⟨x, x1, x2⟩ := (C70_honest luckyBuild_ok h hk hk exRng_ok).2 hu f4 hc
  obtain ⟨y, y1, y2⟩ := (C70_honest luckyBuild_ok h hk hk hr).2 hu f4 hc
  have hall : ∀ z ∈ [x, y], z.par = par ∧ z.ct = ct ∧ z.hShare.Valid ∧ z.hShare.ctx = l.ctx := fun z hz => by
    rcases List.mem_pair.1 hz with rfl | rfl
    · exact x2
    · exact y2
  obtain ⟨r, r1, r2⟩ := C70_secret_switch luckyBuild_ok h hu hc hall (by simp) (List.Perm.swap y x [])
  exact ⟨par, ct, l.ctx, x, y, sk, sk, r, h, hu, hc, x1, y1, hall, r1, r2⟩

end Fhe.Props
