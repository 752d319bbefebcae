import Verif.Lemmas.Mbfv
/-!
# Lemmas on the generation of relinearization keys by several parties
-/
namespace Fhe
open Nega Poly Ciphertext

variable {b : Build} {n N i m : Nat} {c : Context} {vt vt' : Bool} {par : Par} {l : ContextLevel} {α : Type}

theorem zipIdx_mapM {β : Type} {F : α × Nat → Res β} {m : Nat} : ∀ {off : Nat} {f : Nat → α} {g : Nat → β}, (∀ i < m, F (f i, off + i) = Res.ok (g i)) → ((tab m f).zipIdx off).mapM F = Res.ok (tab m g) := by
  induction m with
  | zero => intro off f g _; rfl
  | succ m ih =>
    intro off f g h
    rw [tab_succ, tab_succ, List.zipIdx_cons, List.mapM_cons, show F (f 0, off) = Res.ok (g 0) from h 0 (by omega), Res.ok_bind, ih (g := fun i => g (i + 1)) fun i hi => by
      have := h (i + 1) (by omega)
      rwa [show off + (i + 1) = off + 1 + i by omega] at this]
    rfl

theorem addPairs_tab : ∀ {m : Nat} {x y a d x' y' : Nat → Poly .ntt}, (∀ i < m, (x i).addAssign (a i) = some (x' i)) → (∀ i < m, (y i).addAssign (d i) = some (y' i)) →
    addPairs (tab m x) (tab m y) (tab m a) (tab m d) = some (tab m x', tab m y')
  | 0, _, _, _, _, _, _, _, _ => rfl
  | m + 1, x, y, a, d, x', y', h1, h2 => by
    simp only [tab_succ, addPairs]
    rw [h1 0 (by omega), h2 0 (by omega), addPairs_tab (fun i hi => h1 (i + 1) (by omega)) (fun i hi => h2 (i + 1) (by omega))]
    rfl

/-- Polynomials of a context, in the form in which they are exchanged. -/
def polys (c : Context) (m : Nat) (H : Nat → IntPoly N) : List (Poly .ntt) := tab m fun i => encI c .ntt false (H i)

theorem fold_zipUpdate (h : c.WF b n) (hN : c.degree = N) {F G : α → Nat → IntPoly N} {f g : α → List (Poly .ntt)} (hf : ∀ a, f a = polys c m (F a)) (hg : ∀ a, g a = polys c m (G a)) :
    ∀ (x : List α) (X Y : Nat → IntPoly N),
      x.foldlM (fun (h : List (Poly .ntt) × List (Poly .ntt)) a => do return (← zipUpdate Poly.addAssign h.1 (f a), ← zipUpdate Poly.addAssign h.2 (g a))) (polys c m X, polys c m Y) =
      some (polys c m fun i => X i + (x.map fun a => F a i).sum, polys c m fun i => Y i + (x.map fun a => G a i).sum)
  | [], X, Y => by simp
  | a :: x, X, Y => by
    rw [List.foldlM_cons, hf, hg]
    simp only []
    rw [show zipUpdate Poly.addAssign (polys c m X) (polys c m (F a)) = some (polys c m fun i => X i + F a i) from
        zipUpdate_tab fun i _ => by rw [addAssign_encI h hN (by simp), Bool.and_self],
      show zipUpdate Poly.addAssign (polys c m Y) (polys c m (G a)) = some (polys c m fun i => Y i + G a i) from
        zipUpdate_tab fun i _ => by rw [addAssign_encI h hN (by simp), Bool.and_self]]
    simp only [Option.bind_eq_bind, Option.bind_some]
    refine (fold_zipUpdate h hN hf hg x _ _).trans ?_
    simp only [List.map_cons, List.sum_cons, add_assoc]

theorem fold_addPairs (h : c.WF b n) (hN : c.degree = N) {F G : α → Nat → IntPoly N} {f g : α → List (Poly .ntt)} (hf : ∀ a, f a = polys c m (F a)) (hg : ∀ a, g a = polys c m (G a)) :
    ∀ (x : List α) (X Y : Nat → IntPoly N),
      x.foldlM (fun (h : List (Poly .ntt) × List (Poly .ntt)) a => addPairs h.1 h.2 (f a) (g a)) (polys c m X, polys c m Y) =
      some (polys c m fun i => X i + (x.map fun a => F a i).sum, polys c m fun i => Y i + (x.map fun a => G a i).sum)
  | [], X, Y => by simp
  | a :: x, X, Y => by
    rw [List.foldlM_cons, hf, hg]
    simp only []
    rw [show addPairs (polys c m X) (polys c m Y) (polys c m (F a)) (polys c m (G a)) = some (polys c m fun i => X i + F a i, polys c m fun i => Y i + G a i) from
        addPairs_tab (fun i _ => by rw [addAssign_encI h hN (by simp), Bool.and_self]) (fun i _ => by rw [addAssign_encI h hN (by simp), Bool.and_self])]
    rw [Option.bind_eq_bind, Option.bind_some]
    refine (fold_addPairs h hN hf hg x _ _).trans ?_
    simp only [List.map_cons, List.sum_cons, add_assoc]

theorem AtLevel.gadget (ha : AtLevel b n par i l) (p j q : Nat) (g : Int) (h1 : l.ctx.moduli[j]? = some q) (h2 : (l.ctx.rns.garner.map fun x : Nat => (x : Int))[p]? = some g) :
    (q : Int) ∣ g - if p = j then 1 else 0 := by
  have hrns := ha.wf.level.rns
  have hrm := ha.wf.level.rns_moduli
  rw [List.getElem?_map, Option.map_eq_some_iff] at h2
  obtain ⟨x, hx, rfl⟩ := h2
  obtain ⟨hj, rfl⟩ := List.getElem?_eq_some_iff.1 h1
  have hxg : l.ctx.rns.garner.getD p 0 = x := by rw [List.getD_eq_getElem?_getD, hx]; rfl
  by_cases hij : p = j
  · subst hij
    have := hrns.garner_self
    simp only [hrm] at this
    have h3 := this p hj
    rw [hxg] at h3
    rw [if_pos rfl]
    have h4 := Int.dvd_self_sub_emod (x := (x : Int)) (m := ((l.ctx.moduli[p] : Nat) : Int))
    have h5 : (x : Int) % ((l.ctx.moduli[p] : Nat) : Int) = 1 := by exact_mod_cast h3
    rwa [h5] at h4
  · have := hrns.garner_other
    simp only [hrm] at this
    have h3 := this p j hj hij
    rw [hxg] at h3
    rw [if_neg hij, sub_zero]
    exact_mod_cast h3

theorem exists_small (hw : ParWF b n par.toBfvParameters) {rngs : Nat → Nat → Nat} (hr : ∀ i, IsStream (rngs i)) :
    ∃ E : Nat → IntPoly par.degree, (∀ i, (E i).Bounded (2 * par.variance)) ∧ ∀ {c : Context}, c.WF b n → c.degree = par.degree → ∀ i, smallNtt c par.variance (rngs i) = some (.ok (encI c .ntt false (E i))) := by
  choose E h1 h2 using fun i => small_encI hw.variance.1 hw.variance.2 (hr i) par.degree
  exact ⟨E, h1, fun h hN i => (h2 i h hN).2.1⟩

namespace RelinKeyGenerator
variable {s : IntPoly par.degree} {sk : SecretKey} {crp : List CommonRandomPoly} {A : Nat → IntPoly par.degree} {w : Nat → Bool}

theorem new_eq (hw : ParWF b n par.toBfvParameters) (ha : AtLevel b n par 0 l) (hk : sk.IsKey par s) (h1 : par.moduli.length ≠ 1) (hc : crp.length = par.moduli.length) {rng : Nat → Nat} (hr : IsStream rng) :
    ∃ u : IntPoly par.degree, u.Bounded (2 * par.variance) ∧ new sk crp rng = Res.ok { sk, crp, u := encI l.ctx .ntt false u } := by
  obtain ⟨u, hu, hs⟩ := small_encI hw.variance.1 hw.variance.2 hr par.degree
  have hl := ha.length
  refine ⟨u, hu, ?_⟩
  unfold new
  rw [hk.par_eq, ha.contextAt, Res.ok_bind, if_neg (by omega), if_neg (by omega), (hs ha.wf ha.deg).2.1, Res.math_ok, Res.ok_bind]
  rfl

/-- The recombination factors. -/
def factor (l : ContextLevel) (i : Nat) : Int := (l.ctx.rns.garner.getD i 0 : Nat)

theorem round1_eq (hw : ParWF b n par.toBfvParameters) (ha : AtLevel b n par 0 l) (hk : sk.IsKey par s) (hc : crp = tab par.moduli.length fun i => ⟨encI l.ctx .ntt (w i) (A i)⟩) (u : IntPoly par.degree)
    {rngs0 rngs1 : Nat → Nat → Nat} (hr0 : ∀ i, IsStream (rngs0 i)) (hr1 : ∀ i, IsStream (rngs1 i)) :
    ∃ E0 E1 : Nat → IntPoly par.degree, (∀ i, (E0 i).Bounded (2 * par.variance)) ∧ (∀ i, (E1 i).Bounded (2 * par.variance)) ∧
      round1 b { sk, crp, u := encI l.ctx .ntt false u } rngs0 rngs1 = Res.ok { par, h0 := polys l.ctx par.moduli.length fun i => -A i * u + C (factor l i) * s + E0 i
                                                                                h1 := polys l.ctx par.moduli.length fun i => A i * s + E1 i } := by
  obtain ⟨E0, b0, s0⟩ := exists_small hw hr0
  obtain ⟨E1, b1, s1⟩ := exists_small hw hr1
  have hl := ha.length
  have hlen : crp.length = par.moduli.length := by rw [hc, length_tab]
  refine ⟨E0, E1, b0, b1, ?_⟩
  have hgl : l.ctx.rns.garner.length = par.moduli.length := by rw [ha.wf.level.rns.len_garner, ha.wf.level.rns_moduli]; exact hl
  have g0 : RelinKeyShare.generateH0 b sk crp (encI l.ctx .ntt false u) rngs0 = Res.ok (polys l.ctx par.moduli.length fun i => -A i * u + C (factor l i) * s + E0 i) := by
    have hpre : prefixOf par.moduli par.moduli.length = some l.ctx.moduli := by
      unfold prefixOf
      rw [check_eq (by omega), ha.moduli]
      rfl
    unfold RelinKeyShare.generateH0
    rw [hk.par_eq, ha.contextAt, Res.ok_bind, SecretKey.polyAt_encI hk ha.wf ha.deg, Res.ok_bind, hlen, hpre, Res.lift_some, Res.ok_bind, ha.wf.level.rns_new, Res.math_ok, Res.ok_bind, hc]
    refine zipIdx_mapM fun i hi => ?_
    rw [zero_add]
    simp only []
    rw [show l.ctx.rns.getGarner i = some (l.ctx.rns.garner.getD i 0) by
        unfold RnsContext.getGarner
        rw [List.getD_eq_getElem _ _ (by omega), List.getElem?_eq_getElem], Res.lift_some, Res.ok_bind, mulScalar_encI ha.wf ha.deg (by simp), Res.lift_some, Res.ok_bind, s0 ha.wf ha.deg, Res.math_ok,
      Res.ok_bind, neg_encI ha.wf ha.deg (by simp), Res.lift_some, Res.ok_bind, disallowVt_encI, mulAssign_encI ha.wf ha.deg, Res.lift_some, Res.ok_bind, addAssign_encI ha.wf ha.deg (by simp), Res.lift_some,
      Res.ok_bind, addAssign_encI ha.wf ha.deg (by simp), Res.lift_some]
    rfl
  have g1 : RelinKeyShare.generateH1 sk crp rngs1 = Res.ok (polys l.ctx par.moduli.length fun i => A i * s + E1 i) := by
    unfold RelinKeyShare.generateH1
    rw [hk.par_eq, ha.contextAt, Res.ok_bind, SecretKey.polyAt_encI hk ha.wf ha.deg, Res.ok_bind, hc]
    refine zipIdx_mapM fun i hi => ?_
    rw [zero_add]
    simp only []
    rw [s1 ha.wf ha.deg, Res.math_ok, Res.ok_bind, disallowVt_encI, mulAssign_encI ha.wf ha.deg, Res.lift_some, Res.ok_bind, addAssign_encI ha.wf ha.deg (by simp), Res.lift_some]
    rfl
  unfold round1
  simp only []
  rw [hk.par_eq, ha.contextAt, Res.ok_bind, if_neg (by omega), g0, Res.ok_bind, g1, Res.ok_bind]
  rfl

theorem aggregate1_eq (ha : AtLevel b n par 0 l) {sh : α → RelinKeyShare} {F G : α → Nat → IntPoly par.degree} (hs : ∀ a, sh a = { par, h0 := polys l.ctx m (F a), h1 := polys l.ctx m (G a) }) :
    ∀ {x : List α}, x ≠ [] → RelinKeyShare.aggregate (x.map sh) =
      Res.ok { par, h0 := polys l.ctx m fun i => (x.map fun a => F a i).sum, h1 := polys l.ctx m fun i => (x.map fun a => G a i).sum }
  | [], h => absurd rfl h
  | a :: x, _ => by
    rw [List.map_cons]
    unfold RelinKeyShare.aggregate
    simp only []
    rw [hs a]
    simp only []
    rw [List.foldlM_map, fold_zipUpdate ha.wf ha.deg (f := fun a => (sh a).h0) (g := fun a => (sh a).h1) (F := F) (G := G) (fun a => by rw [hs a]) (fun a => by rw [hs a]), Res.lift_some, Res.ok_bind]
    simp only [List.map_cons, List.sum_cons]
    rfl

theorem round2_eq (hw : ParWF b n par.toBfvParameters) (ha : AtLevel b n par 0 l) (hk : sk.IsKey par s) (u : IntPoly par.degree) {par' : Par} {H0 H1 : Nat → IntPoly par.degree}
    {rngs0 rngs1 : Nat → Nat → Nat} (hr0 : ∀ i, IsStream (rngs0 i)) (hr1 : ∀ i, IsStream (rngs1 i)) :
    ∃ E0 E1 : Nat → IntPoly par.degree, (∀ i, (E0 i).Bounded (2 * par.variance)) ∧ (∀ i, (E1 i).Bounded (2 * par.variance)) ∧
      round2 { sk, crp, u := encI l.ctx .ntt false u } { par := par', h0 := polys l.ctx m H0, h1 := polys l.ctx m H1 } rngs0 rngs1 =
        Res.ok { par, h0 := polys l.ctx m fun i => H0 i * s + E0 i, h1 := polys l.ctx m fun i => H1 i * (u - s) + E1 i
                 lastRound := some { par := par', h0 := polys l.ctx m H0, h1 := polys l.ctx m H1 } } := by
  obtain ⟨E0, b0, s0⟩ := exists_small hw hr0
  obtain ⟨E1, b1, s1⟩ := exists_small hw hr1
  refine ⟨E0, E1, b0, b1, ?_⟩
  have gen : ∀ (H : Nat → IntPoly par.degree) (f : IntPoly par.degree) (E : Nat → IntPoly par.degree) (rngs : Nat → Nat → Nat),
      (∀ i, smallNtt l.ctx par.variance (rngs i) = some (.ok (encI l.ctx .ntt false (E i)))) →
      RelinKeyShare2.generate l.ctx par.variance (encI l.ctx .ntt false f) (polys l.ctx m H) rngs = Res.ok (polys l.ctx m fun i => H i * f + E i) := by
    intro H f E rngs hE
    unfold RelinKeyShare2.generate
    refine zipIdx_mapM fun i hi => ?_
    rw [zero_add]
    simp only []
    rw [hE, Res.math_ok, Res.ok_bind, disallowVt_encI, mulAssign_encI ha.wf ha.deg, Res.lift_some, Res.ok_bind, addAssign_encI ha.wf ha.deg (by simp), Res.lift_some]
    rfl
  unfold round2
  simp only []
  rw [hk.par_eq, ha.contextAt, Res.ok_bind, SecretKey.polyAt_encI hk ha.wf ha.deg, Res.ok_bind, gen _ _ _ _ (s0 ha.wf ha.deg), Res.ok_bind, subAssign_encI ha.wf ha.deg (by simp), Res.lift_some, Res.ok_bind,
    Bool.and_self, gen _ _ _ _ (s1 ha.wf ha.deg), Res.ok_bind]
  rfl

theorem aggregate2_eq (ha : AtLevel b n par 0 l) {par' : Par} {H0 H1 : Nat → IntPoly par.degree} {sh : α → RelinKeyShare2} {F G : α → Nat → IntPoly par.degree}
    (hs : ∀ a, sh a = { par, h0 := polys l.ctx m (F a), h1 := polys l.ctx m (G a), lastRound := some { par := par', h0 := polys l.ctx m H0, h1 := polys l.ctx m H1 } }) :
    ∀ {x : List α}, x ≠ [] → RelinKeyShare2.aggregate (x.map sh) = Res.ok { ksk :=
      { par, seed := none, c0 := tab m fun i => encI l.ctx .nttShoup false ((x.map fun a => F a i).sum + (x.map fun a => G a i).sum), c1 := tab m fun i => encI l.ctx .nttShoup false (H1 i)
        ciphertextLevel := 0, ctxCiphertext := l.ctx, kskLevel := 0, ctxKsk := l.ctx, logBase := 0 } }
  | [], h => absurd rfl h
  | a :: x, _ => by
    rw [List.map_cons]
    unfold RelinKeyShare2.aggregate
    simp only []
    rw [hs a]
    simp only []
    rw [ha.contextAt, Res.ok_bind, List.foldlM_map, fold_addPairs ha.wf ha.deg (f := fun a => (sh a).h0) (g := fun a => (sh a).h1) (F := F) (G := G) (fun a => by rw [hs a]) (fun a => by rw [hs a]),
      Res.lift_some, Res.ok_bind]
    simp only []
    unfold polys
    rw [zipUpdate_tab (fun i _ => addAssign_encI ha.wf ha.deg (by simp) _ _), Res.lift_some, Res.ok_bind, tab_mapM (fun i _ => nttToShoup_encI ha.wf _), Res.lift_some, Res.ok_bind,
      tab_mapM (fun i _ => nttToShoup_encI ha.wf _), Res.lift_some, Res.ok_bind]
    simp only [List.map_cons, List.sum_cons]
    rfl

theorem isFor (ha : AtLevel b n par 0 l) {S U : IntPoly par.degree} {A E0 E1 E2 : Nat → IntPoly par.degree} {H0 H1 : Nat → IntPoly par.degree} {e : Nat}
    (h0 : ∀ i, H0 i = -A i * U + C (factor l i) * S + E0 i) (h1 : ∀ i, H1 i = A i * S + E1 i) (he : ∀ i, (E0 i * S + E1 i * U + E2 i).Bounded e)  {F : Nat → IntPoly par.degree}
    (hF : ∀ i, F i = H0 i * S + H1 i * (U - S) + E2 i) :
    RelinearizationKey.IsFor par S { ksk :=
      { par, seed := none, c0 := tab par.moduli.length fun i => encI l.ctx .nttShoup false (F i), c1 := tab par.moduli.length fun i => encI l.ctx .nttShoup false (H1 i)
        ciphertextLevel := 0, ctxCiphertext := l.ctx, kskLevel := 0, ctxKsk := l.ctx, logBase := 0 } } 0 0 e := by
  have hl := ha.length
  have hgl : l.ctx.rns.garner.length = par.moduli.length := by rw [ha.wf.level.rns.len_garner, ha.wf.level.rns_moduli]; exact hl
  have hsp : ∀ G : Nat → IntPoly par.degree, List.Forall₂ (fun (p : Poly .nttShoup) f => p.IsMod l.ctx f) (tab par.moduli.length fun i => encI l.ctx .nttShoup false (G i)) (tab par.moduli.length G) := by
    intro G
    rw [List.forall₂_iff_get]
    refine ⟨by simp [length_tab], fun k h1 h2 => ?_⟩
    simp only [tab, List.get_eq_getElem, List.getElem_map, List.getElem_range]
    exact isMod_encI ha.wf ha.deg _
  refine ⟨rfl, rfl, le_rfl, tab par.moduli.length fun i => E0 i * S + E1 i * U + E2 i, ⟨rfl, ha.contextAt, ha.contextAt, tab par.moduli.length F, tab par.moduli.length H1,
    l.ctx.rns.garner.map fun x : Nat => (x : Int), .residues rfl ?_ ha.gadget, hsp F, hsp H1, ?_, ?_⟩, ?_⟩
  · rw [List.length_map, hgl]; exact hl.symm
  · simp [length_tab, hgl]
  · intro p a b' e' g ha' hb' hg' he' j
    obtain ⟨hp, -⟩ := List.getElem?_eq_some_iff.1 ha'
    rw [length_tab] at hp
    rw [tab_get? _ hp, Option.some_inj] at ha' hb' he'
    subst ha' hb' he'
    have hgp : g = factor l p := by
      rw [List.getElem?_map, Option.map_eq_some_iff] at hg'
      obtain ⟨x, hx, rfl⟩ := hg'
      unfold factor
      rw [List.getD_eq_getElem?_getD, hx]; rfl
    have hr : KeySwitchingKey.ratio par { par, seed := none, c0 := tab par.moduli.length fun i => encI l.ctx .nttShoup false (F i), c1 := tab par.moduli.length fun i => encI l.ctx .nttShoup false (H1 i)
                                          ciphertextLevel := 0, ctxCiphertext := l.ctx, kskLevel := 0, ctxKsk := l.ctx, logBase := 0 } = 1 := by
      unfold KeySwitchingKey.ratio
      exact Nat.div_self ha.pos
    rw [hr]
    have : F p + H1 p * S = (E0 p * S + E1 p * U + E2 p) + C g * (S * S) := by
      rw [hF, h0, h1, hgp]; ring
    rw [this, Nega.add_apply, C_mul_apply]
    unfold IntPoly.scale
    simp
  · intro x hx
    obtain ⟨p, -, rfl⟩ := mem_tab.1 hx
    exact he p

end RelinKeyGenerator

end Fhe
