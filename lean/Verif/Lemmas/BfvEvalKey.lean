import Verif.Lemmas.BfvEval
/-!
# Lemmas on evaluation keys: operations
-/
namespace Fhe
open Nega Poly Ciphertext

variable {b : Build} {n N : Nat} {par : Par} {i j : Nat} {l : ContextLevel}

namespace EvaluationKey
variable {s : IntPoly par.degree} {k : EvaluationKey} {e : Nat} {ct : Ciphertext} {m : par.Msg} {v : IntPoly par.degree}

theorem getKey_some {x : Nat} {g : GaloisKey} (h : k.gk.lookup x = some g) : k.getKey x = Res.ok g := by unfold getKey; rw [h]

theorem validateCiphertext_ok (hw : ParWF b n par.toBfvParameters) (hk : k.IsFor par s i j e) (h : ct.Encrypts par s i m v) (h2 : ct.c.length = 2) : k.validateCiphertext ct = Res.ok () := by
  obtain ⟨l, F, M, ha, hF, -, -⟩ := h.elim hw
  have hval := validateFor_ok (par := par) (ct := ct) (l := l) (by rw [h.level_eq]; exact ha) h.par_eq (by omega) hF.ctx
  unfold validateCiphertext
  rw [hk.par_eq, hval, Res.ok_bind, if_neg (by omega), if_neg (by rw [h.level_eq, hk.level]; simp)]

theorem zero_valid (par : Par) : ∀ p ∈ (Ciphertext.zero par).c, p.Valid := fun p hp => by simp [Ciphertext.zero] at hp

theorem exists_succ {x : Nat} (h : 1 ≤ x) : ∃ c, x = c + 1 := ⟨x - 1, by omega⟩

theorem step_bound {L V T : Nat} : 2 ^ L * (V + (V + T)) + (2 ^ L - 1) * T = 2 ^ (L + 1) * V + (2 ^ (L + 1) - 1) * T := by
  have h : 1 ≤ 2 ^ L := Nat.one_le_two_pow
  obtain ⟨c, hc⟩ : ∃ c, 2 ^ L = c + 1 := ⟨2 ^ L - 1, by omega⟩
  rw [pow_succ, hc, show (c + 1) * 2 - 1 = 2 * c + 1 by omega, Nat.add_sub_cancel]; ring

/-- The message after the steps of the inner sum in the list. -/
def innerMsg (m : par.Msg) (is : List Nat) : par.Msg := is.foldl (fun a t => a + Nega.subst (3 ^ t) a) m

theorem innerLoop_eq (hw : ParWF b n par.toBfvParameters) (hk : k.IsFor par s i j e) {S B : Nat} (hS : s.Bounded S) (hB : k.ErrorAtMost par S e B) :
    ∀ {is : List Nat} {out tmp : Ciphertext} {m : par.Msg} {V : Nat}, (∀ t ∈ is, 1 ≤ t ∧ t < par.degree / 2 ∧ (k.gk.lookup (3 ^ t % (2 * par.degree))).isSome) → out.Fits par s i m V →
      (∀ p ∈ tmp.c, p.Valid) → ∃ out' tmp', k.innerLoop is out tmp = Res.ok (out', tmp') ∧
        out'.Fits par s i (innerMsg m is) (2 ^ is.length * V + (2 ^ is.length - 1) * (par.plaintext.value * B)) ∧ ∀ p ∈ tmp'.c, p.Valid
  | [], out, tmp, m, V, _, ho, ht => ⟨out, tmp, rfl, by simpa [innerMsg] using ho, ht⟩
  | t :: is, out, tmp, m, V, hh, ho, ht => by
    obtain ⟨h1, h2, h3⟩ := hh t (by simp)
    obtain ⟨g, hg⟩ := Option.isSome_iff_exists.1 h3
    obtain ⟨r, e1, e2⟩ := ho.relin hw (hk.gk _ _ hg) hS (hB _ _ hg)
    rw [subst_mod] at e2
    obtain ⟨r', e3, e4⟩ := ho.add hw e2
    obtain ⟨out', tmp', e5, e6, e7⟩ := innerLoop_eq hw hk hS hB (is := is) (out := r') (tmp := r) (fun t ht => hh t (List.mem_cons_of_mem _ ht)) e4 (e2.valid hw)
    refine ⟨out', tmp', ?_, ?_, e7⟩
    · unfold innerLoop
      rw [(hk.rot t _).2 ⟨h1, h2, rfl⟩]
      simp only []
      rw [getKey_some hg, Res.ok_bind, e1 _ ht, Res.ok_bind, e3, Res.lift_some, Res.ok_bind, e5]
    · rw [step_bound, ← List.length_cons] at e6
      exact e6

theorem mapM_lookup (hrot : ∀ t x, k.rot.lookup t = some x ↔ 1 ≤ t ∧ t < par.degree / 2 ∧ x = 3 ^ t % (2 * par.degree)) : ∀ {is : List Nat}, (∀ t ∈ is, 1 ≤ t ∧ t < par.degree / 2) →
    (is.mapM fun i => do return (k.gk.lookup (← k.rot.lookup i)).isSome) = some (is.map fun t => (k.gk.lookup (3 ^ t % (2 * par.degree))).isSome)
  | [], _ => rfl
  | t :: is, h => by
    obtain ⟨h1, h2⟩ := h t (by simp)
    rw [List.mapM_cons, (hrot t _).2 ⟨h1, h2, rfl⟩, mapM_lookup hrot fun t ht => h t (List.mem_cons_of_mem _ ht)]
    rfl

theorem steps_range (hw : ParWF b n par.toBfvParameters) : doublings (par.degree / 2) (par.degree / 2) 1 = (List.range (n - 1)).map (2 ^ ·) ∧
    ∀ t ∈ (List.range (n - 1)).map (2 ^ ·), 1 ≤ t ∧ t < par.degree / 2 := by
  have hn := hw.three_le
  have hN := hw.degree
  refine ⟨doublings_half (by rw [hN]; congr 1; omega), fun t ht => ?_⟩
  obtain ⟨a, ha, rfl⟩ := List.mem_map.1 ht
  rw [List.mem_range] at ha
  have hh : par.degree / 2 = 2 ^ (n - 1) := by
    rw [hN]; conv_lhs => rw [show n = (n - 1) + 1 by omega, pow_succ]
    simp
  rw [hh]
  exact ⟨Nat.one_le_two_pow, Nat.pow_lt_pow_right (by norm_num) ha⟩

theorem supportsInnerSum_eq (hw : ParWF b n par.toBfvParameters) (hk : k.IsFor par s i j e) : ∃ q, k.supportsInnerSum = some q ∧
    (q = true ↔ (k.gk.lookup (2 * par.degree - 1)).isSome ∧ ∀ a, 2 ^ a < par.degree / 2 → (k.gk.lookup (3 ^ 2 ^ a % (2 * par.degree))).isSome) := by
  obtain ⟨h1, h2⟩ := steps_range hw
  have hn := hw.three_le
  have hN := hw.degree
  have hh : par.degree / 2 = 2 ^ (n - 1) := by
    rw [hN]; conv_lhs => rw [show n = (n - 1) + 1 by omega, pow_succ]
    simp
  unfold supportsInnerSum
  rw [hk.par_eq, h1, mapM_lookup hk.rot h2]
  refine ⟨_, rfl, ?_⟩
  rw [Bool.and_eq_true, List.all_eq_true, mul_comm par.degree 2]
  refine and_congr_right fun _ => ?_
  constructor
  · intro h a ha
    have ha' : a < n - 1 := by
      rw [hh] at ha
      exact (Nat.pow_lt_pow_iff_right (by norm_num)).1 ha
    exact h _ (List.mem_map.2 ⟨2 ^ a, List.mem_map.2 ⟨a, by simpa using ha', rfl⟩, rfl⟩)
  · intro h x hx
    obtain ⟨t, ht, rfl⟩ := List.mem_map.1 hx
    obtain ⟨a, ha, rfl⟩ := List.mem_map.1 ht
    exact h a (h2 _ ht).2

theorem computesInnerSum_eq (hw : ParWF b n par.toBfvParameters) (hk : k.IsFor par s i j e) {S B V : Nat} (hS : s.Bounded S) (hB : k.ErrorAtMost par S e B)
    (h : ct.Fits par s i m V) (hsup : k.supportsInnerSum = some true) : ∃ r, k.computesInnerSum ct = Res.ok r ∧
      r.Fits par s i (innerMsg m ((List.range (n - 1)).map (2 ^ ·)) + Nega.subst (2 * par.degree - 1) (innerMsg m ((List.range (n - 1)).map (2 ^ ·))))
        (par.degree * V + (par.degree - 1) * (par.plaintext.value * B)) := by
  obtain ⟨q, hq, hq'⟩ := supportsInnerSum_eq hw hk
  rw [hsup, Option.some_inj] at hq
  obtain ⟨hrow, hcol⟩ := hq'.1 hq.symm
  obtain ⟨h1, h2⟩ := steps_range hw
  obtain ⟨g, hg⟩ := Option.isSome_iff_exists.1 hrow
  have hn := hw.three_le
  obtain ⟨v, hv, hlen, -⟩ := id h
  obtain ⟨out, tmp, e1, e2, e3⟩ := innerLoop_eq hw hk hS hB (tmp := Ciphertext.zero ct.par) (fun t ht => ⟨(h2 t ht).1, (h2 t ht).2, by
    obtain ⟨a, ha, rfl⟩ := List.mem_map.1 ht
    exact hcol a (h2 _ ht).2⟩) h (zero_valid _)
  obtain ⟨r, e4, e5⟩ := e2.relin hw (hk.gk _ _ hg) hS (hB _ _ hg)
  obtain ⟨r', e6, e7⟩ := e2.add hw e5
  refine ⟨r', ?_, ?_⟩
  · unfold computesInnerSum
    rw [validateCiphertext_ok hw hk hv hlen, Res.ok_bind, hsup, Res.lift_some, Res.ok_bind, if_neg (by simp), hv.par_eq, h1, ← hv.par_eq, e1, Res.ok_bind, hk.par_eq, mul_comm par.degree 2, getKey_some hg, Res.ok_bind]
    simp only []
    rw [e4 _ e3, Res.ok_bind, e6, Res.lift_some]
  · have hb := step_bound (L := (List.map (2 ^ ·) (List.range (n - 1))).length) (V := V) (T := par.plaintext.value * B)
    have hb2 : (2 ^ (List.map (2 ^ ·) (List.range (n - 1))).length * V + (2 ^ (List.map (2 ^ ·) (List.range (n - 1))).length - 1) * (par.plaintext.value * B)) +
        ((2 ^ (List.map (2 ^ ·) (List.range (n - 1))).length * V + (2 ^ (List.map (2 ^ ·) (List.range (n - 1))).length - 1) * (par.plaintext.value * B)) + par.plaintext.value * B) =
        par.degree * V + (par.degree - 1) * (par.plaintext.value * B) := by
      have e8 : par.degree = 2 ^ ((List.map (2 ^ ·) (List.range (n - 1))).length + 1) := by rw [hw.degree]; congr 1; simp; omega
      rw [e8]
      have : 1 ≤ 2 ^ (List.map (2 ^ ·) (List.range (n - 1))).length := Nat.one_le_two_pow
      obtain ⟨c, hc⟩ : ∃ c, 2 ^ (List.map (2 ^ ·) (List.range (n - 1))).length = c + 1 := exists_succ this
      rw [pow_succ, hc, show (c + 1) * 2 - 1 = 2 * c + 1 by omega, Nat.add_sub_cancel]; ring
    rw [hb2] at e7
    exact e7

theorem rotates_eq (hw : ParWF b n par.toBfvParameters) (hk : k.IsFor par s i j e) {S B V : Nat} (hS : s.Bounded S) (hB : k.ErrorAtMost par S e B) (h : ct.Fits par s i m V) :
    (k.supportsRowRotation = true → ∃ r, k.rotatesRows ct = Res.ok r ∧ r.Fits par s i (Nega.subst (2 * par.degree - 1) m) (V + par.plaintext.value * B)) ∧
    ∀ t, k.supportsColumnRotationBy t = true → 1 ≤ t ∧ t < par.degree / 2 ∧ ∃ r, k.rotatesColumnsBy ct t = Res.ok r ∧ r.Fits par s i (Nega.subst (3 ^ t) m) (V + par.plaintext.value * B) := by
  obtain ⟨v, hv, hlen, -⟩ := id h
  have hval := validateCiphertext_ok hw hk hv hlen
  constructor
  · intro hsup
    have hsup' := hsup
    unfold supportsRowRotation at hsup'
    rw [hk.par_eq] at hsup'
    obtain ⟨g, hg⟩ := Option.isSome_iff_exists.1 hsup'
    obtain ⟨r, e1, e2⟩ := h.relin hw (hk.gk _ _ hg) hS (hB _ _ hg)
    refine ⟨r, ?_, by rw [mul_comm 2]; exact e2⟩
    unfold rotatesRows
    rw [hval, Res.ok_bind, hsup, if_neg (by simp), hk.par_eq, getKey_some hg, Res.ok_bind, e1 _ (zero_valid _)]
  · intro t hsup
    have hsup' := hsup
    unfold supportsColumnRotationBy at hsup'
    cases hx : k.rot.lookup t with
    | none => rw [hx] at hsup'; simp at hsup'
    | some x =>
      rw [hx] at hsup'
      obtain ⟨h1, h2, h3⟩ := (hk.rot _ _).1 hx
      obtain ⟨g, hg⟩ := Option.isSome_iff_exists.1 hsup'
      obtain ⟨r, e1, e2⟩ := h.relin hw (hk.gk _ _ hg) hS (hB _ _ hg)
      rw [h3, subst_mod] at e2
      refine ⟨h1, h2, r, ?_, e2⟩
      unfold rotatesColumnsBy
      rw [hval, Res.ok_bind, hsup, if_neg (by simp), hx]
      simp only []
      rw [getKey_some hg, Res.ok_bind, e1 _ (zero_valid _)]

/-! ## Expansion -/

theorem log2_degree (hw : ParWF b n par.toBfvParameters) : Nat.log2 par.degree = n := by rw [hw.degree]; exact Nat.log2_two_pow

theorem supportsExpansion_eq (hw : ParWF b n par.toBfvParameters) (hk : k.IsFor par s i j e) {level : Nat} (hl : level ≤ 64) : ∃ q, k.supportsExpansion level = some q ∧
    (q = true ↔ level ≤ n ∧ ∀ l < level, (k.gk.lookup (par.degree / 2 ^ l + 1)).isSome) := by
  unfold supportsExpansion
  by_cases h0 : level = 0
  · rw [if_pos h0]
    exact ⟨true, rfl, by simp [h0]⟩
  · have hlt := hk.lt
    have hle := hk.le
    rw [if_neg h0, if_neg (by rw [hk.keyLevel, hk.par_eq]; omega),
      mapM_eq_some_map (g := fun l => (k.gk.lookup (par.degree / 2 ^ l + 1)).isSome) (fun l hl' => by
        have : l < level := by simpa using hl'
        rw [check_eq (show l < 64 by omega), hk.par_eq, Nat.shiftRight_eq_div_pow]; rfl)]
    refine ⟨_, rfl, ?_⟩
    rw [Bool.and_eq_true, List.all_eq_true, hk.par_eq, log2_degree hw, decide_eq_true_eq]
    refine and_congr_right fun _ => ⟨fun h l hl => h _ (List.mem_map.2 ⟨l, by simpa using hl, rfl⟩), fun h x hx => ?_⟩
    obtain ⟨l, hl, rfl⟩ := List.mem_map.1 hx
    exact h l (by simpa using hl)

/-- `expandRow` on ciphertexts that encrypt the messages `fs`. -/
theorem expandRow_eq (hw : ParWF b n par.toBfvParameters) (ha : AtLevel b n par i l) {x e S B V a : Nat} {g : GaloisKey} (hg : g.IsFor par s x i j e) (hS : s.Bounded S)
    (hB : g.ksk.errorBound par S e ≤ B) (hk : a < par.degree) {vt : Bool} {size step : Nat} : ∀ {xs : List Ciphertext} {fs : List par.Msg} {p : Nat} {sub : Ciphertext},
      List.Forall₂ (fun y f => y.Fits par s i f V) xs fs → (∀ p ∈ sub.c, p.Valid) →
      ∃ low high sub', expandRow g (encI l.ctx .nttShoup vt (-mono a : IntPoly par.degree)) size step p xs sub = Res.ok (low, high, sub') ∧ (∀ p ∈ sub'.c, p.Valid) ∧
        List.Forall₂ (fun y f => y.Fits par s i (f + Nega.subst x f) (V + (V + par.plaintext.value * B))) low fs ∧ high.length = fs.length ∧
        ∀ (q : Nat) (f : par.Msg), fs[q]? = some f → step ||| (p + q) < size → ∃ y, high[q]? = some y ∧ y.Fits par s i ((f - Nega.subst x f) * -mono a) (V + (V + par.plaintext.value * B))
  | _, _, p, sub, .nil, hs => ⟨[], [], sub, rfl, hs, .nil, rfl, fun q f h => by simp at h⟩
  | y :: ys, f :: fs, p, sub, .cons hy hys, hs => by
    obtain ⟨r, e1, e2⟩ := hy.relin hw hg hS hB
    obtain ⟨lo, e3, e4⟩ := hy.add hw e2
    obtain ⟨df, e5, e6⟩ := hy.sub hw e2
    obtain ⟨hi, e7, e8⟩ := mulMonomial_eq (vt := vt) hw ha e6 hk
    obtain ⟨low, high, sub', f1, f2, f3, f4, f5⟩ := expandRow_eq hw ha hg hS hB hk (vt := vt) (size := size) (step := step) (p := p + 1) hys (e2.valid hw)
    refine ⟨lo :: low, (if step ||| p < size then hi else Ciphertext.zero y.par) :: high, sub', ?_, f2, .cons e4 f3, by simp [f4], fun q f' hq hlt => ?_⟩
    · unfold expandRow
      rw [e1 _ hs, Res.ok_bind]
      by_cases hc : step ||| p < size
      · rw [if_pos hc, if_pos hc, e5, Res.lift_some, Res.ok_bind, e7, Res.lift_some, Res.ok_bind]
        beta_reduce
        rw [e3, Res.lift_some, Res.ok_bind, f1, Res.ok_bind, Res.pure_eq]
      · rw [if_neg hc, if_neg hc, Res.ok_bind]
        beta_reduce
        rw [e3, Res.lift_some, Res.ok_bind, f1, Res.ok_bind, Res.pure_eq]
    · cases q with
      | zero =>
        simp only [List.getElem?_cons_zero, Option.some_inj] at hq
        subst hq
        rw [add_zero] at hlt
        exact ⟨hi, by rw [if_pos hlt]; rfl, e8⟩
      | succ q =>
        rw [List.getElem?_cons_succ] at hq
        obtain ⟨z, z1, z2⟩ := f5 q f' hq (by rw [show p + 1 + q = p + (q + 1) by omega]; exact hlt)
        exact ⟨z, by rw [List.getElem?_cons_succ]; exact z1, z2⟩

theorem two_pow_or {l q : Nat} (h : q < 2 ^ l) : 2 ^ l ||| q = 2 ^ l + q := by
  have := Nat.two_pow_add_eq_or_of_lt h 1
  rw [mul_one] at this
  exact this.symm

theorem expandLoop_eq (hw : ParWF b n par.toBfvParameters) (hk : k.IsFor par s i j e) {S B V : Nat} (hS : s.Bounded S) (hB : k.ErrorAtMost par S e B) {size level : Nat}
    (hkeys : ∀ l < level, (k.gk.lookup (par.degree / 2 ^ l + 1)).isSome) (hle : level ≤ n) (hsize : ∀ l < level, 2 ^ l < size) (m : par.Msg) :
    ∀ {left l : Nat} {out : List Ciphertext} {sub : Ciphertext}, l + left = level → out.length = 2 ^ l →
      (∀ p < 2 ^ l, p < size → ∃ y, out[p]? = some y ∧ y.Fits par s i (expandMsg l p m) (2 ^ l * V + (2 ^ l - 1) * (par.plaintext.value * B))) → (∀ p ∈ sub.c, p.Valid) →
      ∃ out', k.expandLoop size left l out sub = Res.ok out' ∧ out'.length = 2 ^ level ∧
        ∀ p < 2 ^ level, p < size → ∃ y, out'[p]? = some y ∧ y.Fits par s i (expandMsg level p m) (2 ^ level * V + (2 ^ level - 1) * (par.plaintext.value * B))
  | 0, l, out, sub, hl, hlen, hout, _ => ⟨out, rfl, by rw [hlen, ← hl]; rfl, by rw [← hl]; exact hout⟩
  | left + 1, l, out, sub, hl, hlen, hout, hsub => by
    have hN := hw.degree
    have hlt : l < level := by omega
    have hdvd : 2 ^ (l + 1) ∣ par.degree := by rw [hN]; exact pow_dvd_pow 2 (by omega)
    have hpos : 0 < 2 ^ l := by positivity
    have hNpos : 0 < par.degree := by rw [hN]; positivity
    obtain ⟨g, hg⟩ := Option.isSome_iff_exists.1 (hkeys l hlt)
    obtain ⟨mo, ctx, h1, h2, F, h3, h4⟩ := hk.monomials l (by rw [log2_degree hw]; omega)
    obtain ⟨lv, ha⟩ := AtLevel.ofLt hw hk.lt
    rw [ha.contextAt, Res.ok_inj] at h2
    subst h2
    have hle2 : 2 ^ (l + 1) ≤ par.degree := Nat.le_of_dvd hNpos hdvd
    rw [pow_succ] at hle2
    have hF : F = -mono (par.degree - 2 ^ l) := Nega.ext fun t => by
      rw [h4, Nega.neg_apply, mono, Nat.mod_eq_of_lt (by omega), Nat.div_eq_of_lt (by omega)]
      by_cases ht : t.val = par.degree - 2 ^ l
      · rw [if_pos ht, if_pos ht]; rfl
      · rw [if_neg ht, if_neg ht, neg_zero]
    rw [isMod_iff ha.wf ha.deg, hF] at h3
    have hrow : List.Forall₂ (fun y f => y.Fits par s i f (2 ^ l * V + (2 ^ l - 1) * (par.plaintext.value * B))) out ((List.range (2 ^ l)).map fun p => expandMsg l p m) := by
      refine List.forall₂_iff_get.2 ⟨by simp [hlen], fun p hp hp' => ?_⟩
      have hp2 : p < 2 ^ l := by omega
      obtain ⟨y, y1, y2⟩ := hout p hp2 (by have := hsize l hlt; omega)
      rw [List.getElem?_eq_getElem hp, Option.some_inj] at y1
      simp only [List.get_eq_getElem, List.getElem_map, List.getElem_range]
      rw [y1]; exact y2
    obtain ⟨low, high, sub', f1, f2, f3, f4, f5⟩ := expandRow_eq hw ha (hk.gk _ _ hg) hS (hB _ _ hg) (a := par.degree - 2 ^ l) (by omega) (vt := mo.vt) (size := size) (step := 2 ^ l) (p := 0) hrow hsub
    have f3' := List.forall₂_iff_get.1 f3
    have hlow : low.length = 2 ^ l := by rw [f3'.1]; simp
    have hhigh : high.length = 2 ^ l := by rw [f4]; simp
    have hbound := step_bound (L := l) (V := V) (T := par.plaintext.value * B)
    have hbound' : (2 ^ l * V + (2 ^ l - 1) * (par.plaintext.value * B)) + ((2 ^ l * V + (2 ^ l - 1) * (par.plaintext.value * B)) + par.plaintext.value * B) =
        2 ^ (l + 1) * V + (2 ^ (l + 1) - 1) * (par.plaintext.value * B) := by
      obtain ⟨c, hc⟩ : ∃ c, 2 ^ l = c + 1 := exists_succ hpos
      rw [pow_succ, hc, show (c + 1) * 2 - 1 = 2 * c + 1 by omega, Nat.add_sub_cancel]; ring
    rw [hbound'] at f5 f3'
    obtain ⟨out', g1, g2, g3⟩ := expandLoop_eq hw hk hS hB hkeys hle hsize m (left := left) (l := l + 1) (out := low ++ high) (sub := sub') (by omega) (by rw [List.length_append, hlow, hhigh, pow_succ]; omega)
      (fun p hp hps => by
        by_cases hpl : p < 2 ^ l
        · have h5 := f3'.2 p (by omega) (by simpa using hpl)
          simp only [List.get_eq_getElem, List.getElem_map, List.getElem_range] at h5
          rw [expandMsg_low hdvd] at h5
          exact ⟨_, by rw [List.getElem?_append_left (by omega), List.getElem?_eq_getElem (by omega)], h5⟩
        · rw [pow_succ] at hp
          obtain ⟨q, rfl⟩ : ∃ q, p = 2 ^ l + q := ⟨p - 2 ^ l, by omega⟩
          obtain ⟨y, y1, y2⟩ := f5 q (expandMsg l q m) (by rw [List.getElem?_map, List.getElem?_range (by omega)]; rfl) (by rw [zero_add, two_pow_or (by omega)]; exact hps)
          rw [expandMsg_high hdvd hNpos] at y2
          exact ⟨y, by rw [List.getElem?_append_right (by omega), hlow, Nat.add_sub_cancel_left]; exact y1, y2⟩) f2
    refine ⟨out', ?_, g2, g3⟩
    unfold expandLoop
    rw [h1]
    simp only []
    rw [hk.par_eq, Nat.shiftRight_eq_div_pow, getKey_some hg, Res.ok_bind, h3, f1, Res.ok_bind]
    exact g1

theorem ceilLog2_one : RnsScaler.ceilLog2 1 = 0 := rfl

theorem expands_eq (hw : ParWF b n par.toBfvParameters) (hk : k.IsFor par s i j e) {S B V : Nat} (hS : s.Bounded S) (hB : k.ErrorAtMost par S e B) {size : Nat}
    (h : ct.Fits par s i m V) (h0 : 0 < size) (hN : size ≤ par.degree) (hsup : k.supportsExpansion (RnsScaler.ceilLog2 size) = some true) :
    ∃ out, k.expands ct size = Res.ok out ∧ out.length = size ∧ ∀ p < size, ∃ y, out[p]? = some y ∧
      y.Fits par s i (expandMsg (RnsScaler.ceilLog2 size) p m) (2 ^ RnsScaler.ceilLog2 size * V + (2 ^ RnsScaler.ceilLog2 size - 1) * (par.plaintext.value * B)) := by
  obtain ⟨v, hv, hlen, -⟩ := id h
  have hval := validateCiphertext_ok hw hk hv hlen
  unfold expands
  rw [hval, Res.ok_bind, if_neg (by omega), hk.par_eq, if_neg (by omega)]
  simp only []
  by_cases h1 : size = 1
  · subst h1
    rw [ceilLog2_one, if_pos rfl]
    refine ⟨[ct], rfl, rfl, fun p hp => ?_⟩
    obtain rfl : p = 0 := by omega
    exact ⟨ct, rfl, by rw [expandMsg_zero]; simpa using h⟩
  · obtain ⟨s1, s2⟩ := RnsScaler.ceilLog2_spec (show 1 < size by omega)
    have hln : RnsScaler.ceilLog2 size ≤ n := by
      by_contra hc
      have h3 : 2 ^ (n + 1) ≤ 2 ^ RnsScaler.ceilLog2 size := Nat.pow_le_pow_right (by norm_num) (by omega)
      rw [pow_succ, ← hw.degree] at h3
      omega
    generalize hlv : RnsScaler.ceilLog2 size = level at *
    have hl0 : level ≠ 0 := by rintro rfl; simp at s1; omega
    rw [if_neg hl0, hsup, Res.lift_some, Res.ok_bind, if_pos rfl]
    obtain ⟨q, hq, hq'⟩ := supportsExpansion_eq hw hk (level := level) (by have := hw.le_16; omega)
    rw [hsup, Option.some_inj] at hq
    obtain ⟨-, hkeys⟩ := hq'.1 hq.symm
    obtain ⟨out, e1, e2, e3⟩ := expandLoop_eq hw hk hS hB (V := V) (size := size) (level := level) hkeys hln (fun l hl => by
        have : 2 ^ (l + 1) ≤ 2 ^ level := Nat.pow_le_pow_right (by norm_num) hl
        rw [pow_succ] at this; omega) m (left := level) (l := 0) (out := [ct]) (sub := Ciphertext.zero ct.par) (by omega) rfl
      (fun p hp _ => by
        obtain rfl : p = 0 := by simpa using hp
        exact ⟨ct, rfl, by rw [expandMsg_zero]; simpa using h⟩) (zero_valid _)
    rw [e1, Res.ok_bind]
    refine ⟨out.take size, rfl, by rw [List.length_take]; omega, fun p hp => ?_⟩
    obtain ⟨y, y1, y2⟩ := e3 p (by omega) hp
    exact ⟨y, by rw [List.getElem?_take, if_pos hp]; exact y1, y2⟩

end EvaluationKey
end Fhe
