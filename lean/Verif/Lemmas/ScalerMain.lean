import Verif.Lemmas.Scaler
/-! The RNS scaler: what `scale` computes. -/
namespace Fhe
namespace RnsScaler

/-- `Σ rᵢ f(gᵢ)` over the zipped lists. -/
def ws (f : Nat → Int) (rs gs : List Nat) : Int := (List.zipWith (fun (r g : Nat) => (r : Int) * f g) rs gs).sum

@[simp] theorem ws_nil (f : Nat → Int) (gs : List Nat) : ws f [] gs = 0 := rfl
@[simp] theorem ws_nil' (f : Nat → Int) (rs : List Nat) : ws f rs [] = 0 := by simp [ws]
@[simp] theorem ws_cons (f : Nat → Int) (r g : Nat) (rs gs : List Nat) : ws f (r :: rs) (g :: gs) = r * f g + ws f rs gs := by
  simp [ws]

theorem ws_mono {f h : Nat → Int} {rs gs : List Nat} (hfh : ∀ g ∈ gs, f g ≤ h g) : ws f rs gs ≤ ws h rs gs := by
  induction rs generalizing gs with
  | nil => simp
  | cons r rs ih =>
    cases gs with
    | nil => simp
    | cons g gs =>
      rw [ws_cons, ws_cons]
      have h1 := mul_le_mul_of_nonneg_left (hfh g (by simp)) (show (0 : Int) ≤ r by omega)
      have h2 := ih (gs := gs) fun x hx => hfh x (by simp [hx])
      omega

theorem ws_congr {f h : Nat → Int} {rs gs : List Nat} (hfh : ∀ g ∈ gs, f g = h g) : ws f rs gs = ws h rs gs :=
  le_antisymm (ws_mono fun g hg => (hfh g hg).le) (ws_mono fun g hg => (hfh g hg).ge)

theorem ws_lin (a b : Int) (f h : Nat → Int) (rs gs : List Nat) : ws (fun g => a * f g + b * h g) rs gs = a * ws f rs gs + b * ws h rs gs := by
  induction rs generalizing gs with
  | nil => simp
  | cons r rs ih =>
    cases gs with
    | nil => simp
    | cons g gs => rw [ws_cons, ws_cons, ws_cons, ih]; ring

theorem ws_smul (a : Int) (f : Nat → Int) (rs gs : List Nat) : ws (fun g => a * f g) rs gs = a * ws f rs gs := by
  have := ws_lin a 0 f f rs gs
  simpa using this

theorem ws_nonneg {f : Nat → Int} {rs gs : List Nat} (hf : ∀ g ∈ gs, 0 ≤ f g) : 0 ≤ ws f rs gs := by
  have := ws_mono (f := fun _ => 0) (rs := rs) hf
  have h0 : ws (fun _ => 0) rs gs = 0 := by
    have := ws_smul 0 (fun _ => 0) rs gs
    simpa using this
  omega

/-- A sum of residues weighted by 0/1 stays below the sum of the moduli weighted the same way. -/
theorem ws_lt {p : Nat → Bool} {rs gs qs : List Nat} (hl : rs.length = qs.length) (hl' : gs.length = qs.length)
    (hlt : ∀ i (h : i < qs.length), rs.getD i 0 < qs[i]) :
    ws (fun g => if p g then 0 else 1) rs gs ≤ ws (fun g => if p g then 0 else 1) qs gs ∧
    (0 < ws (fun g => if p g then 0 else 1) qs gs →
      ws (fun g => if p g then 0 else 1) rs gs < ws (fun g => if p g then 0 else 1) qs gs) := by
  induction rs generalizing gs qs with
  | nil => cases qs <;> simp_all
  | cons r rs ih =>
    cases qs with
    | nil => simp at hl
    | cons q qs =>
      cases gs with
      | nil => simp at hl'
      | cons g gs =>
        have h0 : r < q := hlt 0 (by simp)
        obtain ⟨h1, h2⟩ := ih (gs := gs) (qs := qs) (by simpa using hl) (by simpa using hl') fun i h =>
          hlt (i + 1) (by simpa using h)
        rw [ws_cons, ws_cons]
        by_cases hp : p g = true
        · simp only [hp, if_true]
          constructor
          · omega
          · intro h; have := h2 (by omega); omega
        · simp only [if_neg hp]
          constructor <;> omega

theorem sumThetaGarner_eq {θ : Nat → Nat} {gs rs : List Nat} {acc : Nat} (hθ : ∀ g ∈ gs, θ g ≤ 2 ^ 127) (hr : ∀ r ∈ rs, r < 2 ^ 62)
    (hacc : acc < 2 ^ 256) :
    ∃ x, sumThetaGarner (gs.map fun g => θ g % 2 ^ 64) (gs.map fun g => θ g / 2 ^ 64) rs acc = some x ∧
      (x : Int) = (acc + ws (fun g => θ g) rs gs) % 2 ^ 256 := by
  induction rs generalizing gs acc with
  | nil =>
    refine ⟨acc, by cases gs <;> rfl, ?_⟩
    rw [ws_nil, add_zero, Int.emod_eq_of_lt (by omega) (by exact_mod_cast hacc)]
  | cons r rs ih =>
    cases gs with
    | nil =>
      refine ⟨acc, rfl, ?_⟩
      rw [ws_nil', add_zero, Int.emod_eq_of_lt (by omega) (by exact_mod_cast hacc)]
    | cons g gs =>
      have h1 : r * θ g ≤ 2 ^ 62 * 2 ^ 127 := Nat.mul_le_mul (hr r (by simp)).le (hθ g (by simp))
      have hm : mul256 r (θ g) = some (r * θ g) := by
        unfold mul256; rw [check_eq (by omega)]; rfl
      obtain ⟨x, hx1, hx2⟩ := ih (gs := gs) (acc := wadd256 acc (r * θ g)) (fun y hy => hθ y (by simp [hy])) (fun y hy => hr y (by simp [hy]))
        (Nat.mod_lt _ (by norm_num))
      refine ⟨x, ?_, ?_⟩
      · simp only [List.map_cons, sumThetaGarner, joinWords_eq, hm, Option.bind_eq_bind, Option.bind_some]
        exact hx1
      · rw [hx2, ws_cons, wadd256]
        push_cast
        rw [Int.emod_add_emod]
        ring_nf

theorem wsub256_cast {a b : Nat} (hb : b < 2 ^ 256) : ((wsub256 a b : Nat) : Int) = (a - b) % 2 ^ 256 := by
  unfold wsub256
  rw [Int.natCast_mod, Nat.cast_sub (show b ≤ a + 2 ^ 256 by omega)]
  push_cast
  omega

theorem sumThetaOmega_eq {n d : Nat} {gs rs : List Nat} {acc : Nat} {A : Int} (hd : 0 < d) (hr : ∀ r ∈ rs, r < 2 ^ 62)
    (hA : (acc : Int) = A % 2 ^ 256) :
    ∃ x, sumThetaOmega (gs.map fun g => theta true n d g % 2 ^ 64) (gs.map fun g => theta true n d g / 2 ^ 64) (gs.map fun g => sgn n d g) rs acc
        = some x ∧ (x : Int) = (A + ws (fun g => stheta true n d g) rs gs) % 2 ^ 256 := by
  induction rs generalizing gs acc A with
  | nil =>
    refine ⟨acc, by cases gs <;> rfl, ?_⟩
    rw [ws_nil, add_zero, hA]
  | cons r rs ih =>
    cases gs with
    | nil =>
      refine ⟨acc, rfl, ?_⟩
      rw [ws_nil', add_zero, hA]
    | cons g gs =>
      have h1 : r * theta true n d g ≤ 2 ^ 62 * 2 ^ 126 := Nat.mul_le_mul (hr r (by simp)).le (theta_le hd)
      have hm : mul256 r (theta true n d g) = some (r * theta true n d g) := by
        unfold mul256; rw [check_eq (by omega)]; rfl
      have hacc : ((if sgn n d g then wsub256 acc (r * theta true n d g) else wadd256 acc (r * theta true n d g) : Nat) : Int) =
          (A + r * stheta true n d g) % 2 ^ 256 := by
        unfold stheta
        cases sgn n d g with
        | true =>
          rw [if_pos rfl, if_pos rfl, wsub256_cast (by omega), hA, Int.emod_sub_emod]
          push_cast; ring_nf
        | false =>
          rw [if_neg (by simp), if_neg (by simp), wadd256]
          rw [Int.natCast_mod, Nat.cast_add, hA]
          push_cast
          exact Int.emod_add_emod _ _ _
      obtain ⟨x, hx1, hx2⟩ := ih (gs := gs) (fun y hy => hr y (by simp [hy])) hacc
      refine ⟨x, ?_, ?_⟩
      · simp only [List.map_cons, sumThetaOmega, joinWords_eq, hm, Option.bind_eq_bind, Option.bind_some]
        exact hx1
      · rw [hx2, ws_cons]; ring_nf

theorem roundV_eq {T s : Nat} (hs : 123 ≤ s) (hT : T < 2 ^ 200) :
    ∃ v, roundV T s = some v ∧ v * 2 ^ s ≤ T + 2 ^ (s - 1) ∧ T + 2 ^ (s - 1) < (v + 1) * 2 ^ s := by
  obtain ⟨k, rfl⟩ : ∃ k, s = k + 1 := ⟨s - 1, by omega⟩
  unfold roundV
  rw [subU_eq (by omega)]
  simp only [Option.bind_eq_bind, Option.bind_some, Nat.add_sub_cancel, Nat.shiftRight_eq_div_pow]
  have hk : 2 ^ 122 ≤ 2 ^ k := Nat.pow_le_pow_right (by norm_num) (by omega)
  have hlt : T / 2 ^ k < 2 ^ 128 := by
    rw [Nat.div_lt_iff_lt_mul (by omega)]
    have : 2 ^ 128 * 2 ^ 122 ≤ 2 ^ 128 * 2 ^ k := Nat.mul_le_mul_left _ hk
    omega
  rw [Nat.mod_eq_of_lt hlt]
  refine ⟨_, rfl, ?_⟩
  have hpos : 0 < 2 ^ k := by omega
  have h1 := div_bounds T (2 ^ k) hpos
  rw [pow_succ]
  generalize T / 2 ^ k = u at *
  generalize 2 ^ k = K at *
  have h2 : 2 * ((u + 1) / 2) ≤ u + 1 ∧ u + 1 < 2 * ((u + 1) / 2) + 2 := by omega
  generalize (u + 1) / 2 = v at *
  have e1 : 2 * v * K ≤ (u + 1) * K := Nat.mul_le_mul_right _ h2.1
  have e2 : (u + 2) * K ≤ (2 * v + 2) * K := Nat.mul_le_mul_right _ (by omega)
  constructor
  · calc v * (K * 2) = 2 * v * K := by ring
      _ ≤ (u + 1) * K := e1
      _ = K * u + K := by ring
      _ ≤ T + K := by omega
  · calc T + K < K * u + K + K := by omega
      _ = (u + 2) * K := by ring
      _ ≤ (2 * v + 2) * K := e2
      _ = (v + 1) * (K * 2) := by ring

/-- The correction term, with its sign. -/
def sW (p : Bool × Nat) : Int := if p.1 then -(p.2 : Int) else p.2

theorem signedW_eq {x : Nat} {S : Int} (hx : (x : Int) = S % 2 ^ 256) (h1 : -2 ^ 191 < S) (h2 : S < 2 ^ 191) :
    ∃ p, roundW x = some p ∧ p.2 < 2 ^ 127 ∧
      2 ^ 127 * sW p ≤ S + 2 ^ 126 ∧ S + 2 ^ 126 < 2 ^ 127 * (sW p + 1) := by
  unfold roundW
  rw [Nat.shiftRight_eq_div_pow]
  by_cases hS : S < 0
  · have hx' : (x : Int) = S + 2 ^ 256 := by
      rw [hx, ← Int.add_emod_right, Int.emod_eq_of_lt (by omega) (by omega)]
    have hd : x / 2 ^ 191 > 0 := by
      exact Nat.div_pos (by omega) (by norm_num)
    rw [if_pos hd, not256, Nat.shiftRight_eq_div_pow]
    have hlt : (2 ^ 256 - 1 - x) / 2 ^ 126 < 2 ^ 66 := by
      rw [Nat.div_lt_iff_lt_mul (by norm_num)]; omega
    rw [Nat.mod_eq_of_lt (by omega), add128_eq (by omega)]
    refine ⟨_, rfl, ?_⟩
    simp only [sW, if_true]
    have hm : ((2 ^ 256 - 1 - x : Nat) : Int) = -S - 1 := by omega
    generalize 2 ^ 256 - 1 - x = m at *
    omega
  · have hx' : (x : Int) = S := by rw [hx, Int.emod_eq_of_lt (by omega) (by omega)]
    have hd : ¬ x / 2 ^ 191 > 0 := by
      rw [gt_iff_lt, not_lt, Nat.le_zero]; exact Nat.div_eq_of_lt (by omega)
    rw [if_neg hd, Nat.shiftRight_eq_div_pow]
    have hlt : x / 2 ^ 126 < 2 ^ 66 := by
      rw [Nat.div_lt_iff_lt_mul (by norm_num)]; omega
    rw [Nat.mod_eq_of_lt (by omega)]
    refine ⟨_, rfl, ?_⟩
    simp only [sW, Bool.false_eq_true, if_false]
    omega

theorem accumulate_eq {q : Modulus} (hq : q.WF) {rs gs os : List Nat} {f : Nat → Nat} {y : Nat} (hr : ∀ r ∈ rs, r < 2 ^ 62)
    (hlen : rs.length = gs.length) (hf : ∀ g ∈ gs, f g < q.p) (hos : (gs.map f).mapM q.shoup = some os)
    (hy : y + rs.length * 2 ^ 63 < 2 ^ 128) :
    ∃ x, accumulate q rs (gs.map f) os y = some x ∧ x < 2 ^ 128 ∧ (x : Int) ≡ y + ws (fun g => f g) rs gs [ZMOD q.p] := by
  induction rs generalizing gs os y with
  | nil => exact ⟨y, by simp [accumulate], by simpa using hy, by simp⟩
  | cons r rs ih =>
    cases gs with
    | nil => simp at hlen
    | cons g gs =>
      rw [List.map_cons, List.mapM_cons] at hos
      obtain ⟨o, ho, hos⟩ := Option.bind_eq_some_iff.1 hos
      obtain ⟨os', hos', hos⟩ := Option.bind_eq_some_iff.1 hos
      obtain rfl : o :: os' = os := Option.some.inj hos
      obtain ⟨t, ht1, ht2, ht3⟩ := Modulus.lazyMulShoup_eq hq (a := r) (show r < 2 ^ 64 by have := hr r (by simp); omega) (hf g (by simp)) ho
      have hqlt := hq.lt
      rw [List.length_cons] at hy
      obtain ⟨x, hx1, hx2, hx3⟩ := ih (gs := gs) (os := os') (y := y + t) (fun a ha => hr a (by simp [ha])) (by simpa using hlen)
        (fun a ha => hf a (by simp [ha])) hos' (by have := Nat.succ_mul rs.length (2 ^ 63); omega)
      refine ⟨x, ?_, hx2, ?_⟩
      · simp only [List.map_cons, accumulate, ht1, Option.bind_eq_bind, Option.bind_some]
        rw [add128_eq (by have := Nat.succ_mul rs.length (2 ^ 63); omega), Option.bind_some]
        exact hx1
      · refine hx3.trans ?_
        rw [ws_cons]
        push_cast
        have : (t : Int) ≡ r * f g [ZMOD q.p] := by
          have : t ≡ r * f g [MOD q.p] := ht3
          exact_mod_cast (Int.natCast_modEq_iff.2 this)
        rw [← add_assoc]
        exact ((Int.ModEq.refl _).add this).add (Int.ModEq.refl _)

theorem ws_mod {f : Nat → Nat} {q : Nat} {rs gs : List Nat} :
    ws (fun g => ((f g % q : Nat) : Int)) rs gs ≡ ws (fun g => (f g : Int)) rs gs [ZMOD q] := by
  induction rs generalizing gs with
  | nil => simp
  | cons r rs ih =>
    cases gs with
    | nil => simp
    | cons g gs =>
      rw [ws_cons, ws_cons]
      refine Int.ModEq.add ((Int.ModEq.refl _).mul ?_) ih
      exact Int.natCast_modEq_iff.2 (Nat.mod_modEq _ _)

theorem sum_bound {rs : List Nat} (hr : ∀ r ∈ rs, r < 2 ^ 62) : rs.sum ≤ rs.length * 2 ^ 62 := by
  induction rs with
  | nil => simp
  | cons r rs ih =>
    rw [List.sum_cons, List.length_cons, Nat.succ_mul]
    have := hr r (by simp)
    have := ih fun x hx => hr x (by simp [hx])
    omega

theorem ws_one {rs gs : List Nat} (h : rs.length = gs.length) : ws (fun _ => 1) rs gs = (rs.sum : Nat) := by
  induction rs generalizing gs with
  | nil => simp
  | cons r rs ih =>
    cases gs with
    | nil => simp at h
    | cons g gs => rw [ws_cons, ih (by simpa using h), List.sum_cons]; push_cast; ring

theorem mapM_length {α β : Type} {f : α → Option β} {l : List α} {l' : List β} (h : l.mapM f = some l') : l'.length = l.length := by
  induction l generalizing l' with
  | nil => obtain rfl : [] = l' := Option.some.inj h; rfl
  | cons x l ih =>
    rw [List.mapM_cons] at h
    obtain ⟨o, ho, h⟩ := Option.bind_eq_some_iff.1 h
    obtain ⟨os', hos', h⟩ := Option.bind_eq_some_iff.1 h
    obtain rfl : o :: os' = l' := Option.some.inj h
    rw [List.length_cons, ih hos', List.length_cons]

theorem one_row {sc : RnsScaler} {src dst : RnsContext} {n d s : Nat} {one : Bool} (h : SC sc src dst n d s one)
    (hs : src.WF) (ht : dst.WF)
    {rs : List Nat} (hlen : rs.length = src.moduliU64.length) (hk : rs.length ≤ 64) (hr : ∀ r ∈ rs, r < 2 ^ 62) {v : Nat} (hv : v < 2 ^ 128)
    {p : Bool × Nat} (hp : p.2 < 2 ^ 128) (hp1 : one = true → p = (false, 0)) {j : Nat} (hj : j < dst.moduliU64.length) :
    sc.scaleOne rs v p.1 p.2 j =
      some ((ws (fun g => roundDiv n d g) rs src.garner - v * roundDiv n d src.product + sW p) % (dst.moduliU64[j] : Int)).toNat := by
  obtain ⟨m, hm1, hm2, hm3⟩ := ht.moduli j hj
  obtain ⟨gs, g1, g2, g3⟩ := h.gamma j m hm1
  obtain ⟨rows, o1, o2, o3⟩ := h.omega j m hm1
  have hlt := hm2.lt
  have hpos := hm2.pos
  obtain ⟨t, t1, t2, t3⟩ := Modulus.lazyMulShoup_eq hm2 (a := v % m.p) (show v % m.p < 2 ^ 64 by have := Nat.mod_lt v hpos; omega)
    (Nat.mod_lt (roundDiv n d src.product) hpos) g3
  obtain ⟨wi, w1, w2, w3⟩ := Modulus.lazyReduceU128_eq hm2 hp
  have hrowlen : rows.length = src.garner.length := by
    have := mapM_length o3
    simpa using this
  -- the starting value
  have hstart : ∃ y, addW m sc.factor.isOne p.1 p.2 (m.p * 2) (m.p * 2 - t) = some y ∧ y < 2 ^ 64 ∧ (y : Int) ≡ - (v * roundDiv n d src.product) + sW p [ZMOD m.p] := by
    have htm : ((m.p * 2 - t : Nat) : Int) ≡ - (v * roundDiv n d src.product) [ZMOD m.p] := by
      rw [Nat.cast_sub (by omega)]
      have e1 : (t : Int) ≡ v * roundDiv n d src.product [ZMOD m.p] := by
        have : t ≡ v * roundDiv n d src.product [MOD m.p] :=
          Nat.ModEq.trans t3 ((Nat.mod_modEq _ _).mul (Nat.mod_modEq _ _))
        exact_mod_cast Int.natCast_modEq_iff.2 this
      have e2 : ((m.p * 2 : Nat) : Int) ≡ 0 [ZMOD m.p] := by
        rw [Int.modEq_zero_iff_dvd]; exact ⟨2, by push_cast; ring⟩
      simpa using e2.sub e1
    unfold addW
    rw [h.isOne]
    by_cases ho : one = true
    · rw [if_pos ho]
      refine ⟨_, rfl, by omega, ?_⟩
      rw [hp1 ho]
      simpa [sW] using htm
    · rw [if_neg ho, w1]
      simp only [Option.bind_eq_bind, Option.bind_some]
      have hw : (wi : Int) ≡ p.2 [ZMOD m.p] := Int.natCast_modEq_iff.2 w3
      cases hp' : p.1 with
      | true =>
        rw [if_pos rfl, subU_eq (by omega), Option.bind_some, add128_eq (by omega)]
        refine ⟨_, rfl, by omega, ?_⟩
        rw [sW, hp', if_pos rfl, Nat.cast_add]
        refine htm.add ?_
        rw [Nat.cast_sub (by omega)]
        have e2 : ((m.p * 2 : Nat) : Int) ≡ 0 [ZMOD m.p] := by
          rw [Int.modEq_zero_iff_dvd]; exact ⟨2, by push_cast; ring⟩
        simpa using e2.sub hw
      | false =>
        rw [if_neg (by simp)]
        rw [add128_eq (by omega)]
        refine ⟨_, rfl, by omega, ?_⟩
        rw [sW, hp', if_neg (by simp), Nat.cast_add]
        exact htm.add hw
  obtain ⟨y, y1, y2, y3⟩ := hstart
  obtain ⟨x, x1, x2, x3⟩ := accumulate_eq hm2 (f := fun g => roundDiv n d g % m.p) (y := y) hr (by rw [hlen, hs.len_garner])
    (fun g _ => Nat.mod_lt _ hpos) o3 (by omega)
  unfold scaleOne
  rw [h.dst_eq, hm1]
  simp only [Option.bind_eq_bind, Option.bind_some]
  rw [o1, Option.bind_some, o2, Option.bind_some, g1, Option.bind_some, g2, Option.bind_some, mul64_eq (by omega), Option.bind_some,
    Modulus.reduceU128_eq hm2 hv, Option.bind_some, t1, Option.bind_some, subU_eq (by omega), Option.bind_some]
  rw [y1, Option.bind_some, check_eq (by rw [List.length_map, hs.len_garner, hlen]), Option.bind_some,
    check_eq (by rw [hrowlen, hs.len_garner, hlen]), Option.bind_some, x1, Option.bind_some, Modulus.reduceU128_eq hm2 x2]
  congr 1
  rw [← hm3]
  have hfin : (x : Int) ≡ ws (fun g => roundDiv n d g) rs src.garner - v * roundDiv n d src.product + sW p [ZMOD m.p] := by
    refine x3.trans ((y3.add ws_mod).trans ?_)
    rw [show -((v : Int) * roundDiv n d src.product) + sW p + ws (fun g => (roundDiv n d g : Int)) rs src.garner =
      ws (fun g => roundDiv n d g) rs src.garner - v * roundDiv n d src.product + sW p by ring]
  have : ((x % m.p : Nat) : Int) = (ws (fun g => roundDiv n d g) rs src.garner - v * roundDiv n d src.product + sW p) % m.p := by
    rw [Int.natCast_mod]; exact hfin
  rw [← this, Int.toNat_natCast]

/-- 1 when the fractional remainder of `n a / d` can be non-zero. -/
def nd (n d a : Nat) : Int := if (decide (d ∣ n * a)) then 0 else 1

theorem abs_stheta_le {up : Bool} {n d a : Nat} (hd : 0 < d) : -(2 ^ 126 * nd n d a) ≤ stheta up n d a ∧ stheta up n d a ≤ 2 ^ 126 * nd n d a := by
  unfold nd stheta
  by_cases h : d ∣ n * a
  · rw [theta_of_dvd hd h]; simp [h]
  · have := theta_le (up := up) (n := n) (a := a) hd
    simp only [h, decide_false, Bool.false_eq_true, if_false]
    split <;> omega

theorem stheta_up' {n d a : Nat} (hd : 0 < d) :
    2 ^ 127 * srem n d a ≤ d * stheta true n d a ∧ d * stheta true n d a ≤ 2 ^ 127 * srem n d a + d * nd n d a := by
  refine ⟨(stheta_up hd).1, ?_⟩
  unfold nd
  by_cases h : d ∣ n * a
  · unfold stheta
    rw [theta_of_dvd hd h, srem_of_dvd hd h]; simp [h]
  · simpa [h] using (stheta_up (n := n) (a := a) hd).2.le

theorem stheta_down' {n d a : Nat} (hd : 0 < d) :
    2 ^ 127 * srem n d a - d * nd n d a ≤ d * stheta false n d a ∧ d * stheta false n d a ≤ 2 ^ 127 * srem n d a := by
  refine ⟨?_, (stheta_down hd).2⟩
  unfold nd
  by_cases h : d ∣ n * a
  · unfold stheta
    rw [theta_of_dvd hd h, srem_of_dvd hd h]; simp [h]
  · simpa [h] using (stheta_down (n := n) (a := a) hd).1.le

/-- The room needed by the signed accumulator. -/
def headroom (src : RnsContext) (n d : Nat) : Int :=
  ws (nd n d) src.moduliU64 src.garner + nd n d src.product * (src.moduliU64.sum : Nat)

theorem scale_eq {sc : RnsScaler} {src dst : RnsContext} {n d s : Nat} {one : Bool} (h : SC sc src dst n d s one)
    (hone : one = true → n = d) (hd : 0 < d) (hs : src.WF) (ht : dst.WF) (hk : src.moduliU64.length ≤ 64)
    (hH : headroom src n d ≤ 2 ^ 65)
    {rs : List Nat} (hlen : rs.length = src.moduliU64.length) (hlt : ∀ i (hi : i < src.moduliU64.length), rs.getD i 0 < src.moduliU64[i])
    {size start : Nat} (h0 : size ≠ 0) (hsz : start + size ≤ dst.moduliU64.length) :
    ∃ (v : Nat) (c z : Int),
      sc.scale rs size start = some ((List.range size).map fun i => (z % (dst.moduliU64.getD (start + i) 0 : Int)).toNat) ∧
      c = ws (fun g => g) rs src.garner - v * src.product ∧
      2 ^ 55 * (2 * |c|) ≤ (2 ^ 55 + 1) * src.product ∧
      n * (2 * c) - d < d * (2 * z) ∧ 2 ^ 61 * (d * (2 * z)) < 2 ^ 61 * (n * (2 * c) + d) + d ∧
      (one = true → z = c) := by
  have hbnd := hs.bounds
  have hr : ∀ r ∈ rs, r < 2 ^ 62 := by
    intro r hr
    obtain ⟨i, hi, rfl⟩ := List.getElem_of_mem hr
    have := hlt i (by omega)
    have hb := hbnd _ (List.getElem_mem (show i < src.moduliU64.length by omega))
    simp only [List.getD_eq_getElem?_getD, List.getElem?_eq_getElem hi, Option.getD_some] at this
    omega
  have hQ := hs.product_pos
  have hglen : src.garner.length = src.moduliU64.length := hs.len_garner
  have hR := sum_bound hr
  have hRlt : rs.sum ≤ 2 ^ 68 := by
    have : rs.length * 2 ^ 62 ≤ 64 * 2 ^ 62 := Nat.mul_le_mul_right _ (by omega)
    omega
  have hws1 : ws (fun _ => 1) rs src.garner = (rs.sum : Nat) := ws_one (by omega)
  have h2s : (2 : Nat) ^ s ≤ 2 ^ 127 := Nat.pow_le_pow_right (by norm_num) h.shift_le
  have h2s' : (2 : Nat) ^ 123 ≤ 2 ^ s := Nat.pow_le_pow_right (by norm_num) h.shift_ge
  obtain ⟨T, hT1, hT2⟩ := sumThetaGarner_eq (θ := gtheta s src.product) (gs := src.garner) (rs := rs) (acc := 0)
    (fun g hg => le_trans (gtheta_le (hs.garner_lt g hg)) h2s) hr (by norm_num)
  have hTle : ws (fun g => (gtheta s src.product g : Int)) rs src.garner ≤ 2 ^ s * (rs.sum : Nat) := by
    rw [← hws1, ← ws_smul]
    refine ws_mono fun g hg => ?_
    rw [mul_one]; exact_mod_cast gtheta_le (hs.garner_lt g hg)
  have hT0 : 0 ≤ ws (fun g => (gtheta s src.product g : Int)) rs src.garner := ws_nonneg fun g _ => by omega
  have hTbig : (2 : Int) ^ s * (rs.sum : Nat) ≤ 2 ^ 195 := by
    have : 2 ^ s * rs.sum ≤ 2 ^ 127 * 2 ^ 68 := Nat.mul_le_mul h2s hRlt
    have e : (2 : Nat) ^ 127 * 2 ^ 68 = 2 ^ 195 := by norm_num
    rw [e] at this
    exact_mod_cast this
  have hTeq : (T : Int) = ws (fun g => (gtheta s src.product g : Int)) rs src.garner := by
    rw [hT2, Nat.cast_zero, zero_add, Int.emod_eq_of_lt hT0]
    exact lt_of_le_of_lt (hTle.trans hTbig) (by norm_num)
  obtain ⟨v, hv1, hv2, hv3⟩ := roundV_eq (T := T) h.shift_ge (by
    have : (T : Int) ≤ 2 ^ 195 := by rw [hTeq]; exact hTle.trans hTbig
    have : T ≤ 2 ^ 195 := by exact_mod_cast this
    omega)
  have hhalf : 2 * 2 ^ (s - 1) = 2 ^ s := by
    rw [← pow_succ']; congr 1; have := h.shift_ge; omega
  -- `v` is at most the sum of the residues
  have hvR : v ≤ rs.sum := by
    have h1 : T ≤ 2 ^ s * rs.sum := by
      have : (T : Int) ≤ 2 ^ s * (rs.sum : Nat) := by rw [hTeq]; exact hTle
      exact_mod_cast this
    have h2 : v * 2 ^ s < (rs.sum + 1) * 2 ^ s := by
      calc v * 2 ^ s ≤ T + 2 ^ (s - 1) := hv2
        _ < 2 ^ s * rs.sum + 2 ^ s := by omega
        _ = (rs.sum + 1) * 2 ^ s := by ring
    exact Nat.lt_succ_iff.1 (Nat.lt_of_mul_lt_mul_right h2)
  -- the centered value
  set c : Int := ws (fun g => g) rs src.garner - v * src.product with hc
  have hcb : 2 ^ s * (2 * |c|) ≤ src.product * 2 ^ s + src.product * (rs.sum : Nat) := by
    have e1 : 2 * (2 ^ s * ws (fun g => (g : Int)) rs src.garner) ≤ 2 * (src.product * ws (fun g => (gtheta s src.product g : Int)) rs src.garner) + src.product * (rs.sum : Nat) := by
      have : ws (fun g => 2 * 2 ^ s * (g : Int)) rs src.garner ≤
          ws (fun g => 1 * (2 * src.product * (gtheta s src.product g : Int)) + src.product * 1) rs src.garner := by
        refine ws_mono fun g hg => ?_
        have := (gtheta_bounds (s := s) (hs.garner_lt g hg)).1
        zify at this; linarith
      rw [ws_smul, ws_lin, hws1, ws_smul] at this
      linarith
    have e2 : 2 * (src.product * ws (fun g => (gtheta s src.product g : Int)) rs src.garner) ≤ 2 * (2 ^ s * ws (fun g => (g : Int)) rs src.garner) + src.product * (rs.sum : Nat) := by
      have : ws (fun g => 2 * src.product * (gtheta s src.product g : Int)) rs src.garner ≤
          ws (fun g => 1 * (2 * 2 ^ s * (g : Int)) + src.product * 1) rs src.garner := by
        refine ws_mono fun g hg => ?_
        have := (gtheta_bounds (s := s) (hs.garner_lt g hg)).2
        zify at this; linarith
      rw [ws_smul, ws_lin, hws1, ws_smul] at this
      linarith
    rw [← hTeq] at e1 e2
    have e3 : 2 * ((v : Int) * 2 ^ s) ≤ 2 * T + 2 ^ s := by
      have : 2 * (v * 2 ^ s) ≤ 2 * T + 2 ^ s := by omega
      exact_mod_cast this
    have e4 : 2 * (T : Int) ≤ 2 * (v * 2 ^ s) + 2 ^ s := by
      have : 2 * T ≤ 2 * (v * 2 ^ s) + 2 ^ s := by
        have : T + 2 ^ (s - 1) < v * 2 ^ s + 2 ^ s := by rw [← Nat.succ_mul]; exact hv3
        omega
      exact_mod_cast this
    have hQ' : (0 : Int) ≤ src.product := by omega
    have e3' := mul_le_mul_of_nonneg_left e3 hQ'
    have e4' := mul_le_mul_of_nonneg_left e4 hQ'
    rcases abs_cases c with ⟨ha, -⟩ | ⟨ha, -⟩ <;> rw [ha, hc]
    · linarith
    · linarith
  have hcb' : 2 ^ 55 * (2 * |c|) ≤ (2 ^ 55 + 1) * src.product := by
    have hA : (0 : Int) ≤ |c| := abs_nonneg c
    have e5 : (2 : Int) ^ 55 * (rs.sum : Nat) ≤ 2 ^ s := by
      have : 2 ^ 55 * rs.sum ≤ 2 ^ 55 * 2 ^ 68 := Nat.mul_le_mul_left _ hRlt
      have e : (2 : Nat) ^ 55 * 2 ^ 68 = 2 ^ 123 := by norm_num
      rw [e] at this
      exact_mod_cast this.trans h2s'
    have e6 := mul_le_mul_of_nonneg_left e5 (show (0 : Int) ≤ src.product by omega)
    have e7 := mul_le_mul_of_nonneg_left hcb (show (0 : Int) ≤ 2 ^ 55 by norm_num)
    have hp : (0 : Int) < 2 ^ s := by positivity
    refine le_of_mul_le_mul_left ?_ hp
    linarith
  have hrd : n * c = d * (ws (fun g => roundDiv n d g) rs src.garner - v * roundDiv n d src.product) +
      (ws (srem n d) rs src.garner - v * srem n d src.product) := by
    have e1 : ws (fun g => n * (g : Int)) rs src.garner = ws (fun g => d * (roundDiv n d g : Int) + 1 * srem n d g) rs src.garner :=
      ws_congr fun g _ => by rw [one_mul]; exact (signedRemainder_spec hd).1
    rw [ws_smul, ws_lin] at e1
    have e2 := (signedRemainder_spec (n := n) (a := src.product) hd).1
    rw [hc]
    linear_combination e1 - v * e2
  -- the correction term
  have hW : ∃ p, sc.computeW rs v = some p ∧ p.2 < 2 ^ 127 ∧ (one = true → p = (false, 0)) ∧
      (2 ^ 127 * (ws (srem n d) rs src.garner - v * srem n d src.product) < d * (2 ^ 127 * sW p) + d * 2 ^ 126) ∧
      (d * (2 ^ 127 * sW p) < 2 ^ 127 * (ws (srem n d) rs src.garner - v * srem n d src.product) + d * 2 ^ 126 + d * 2 ^ 65) := by
    unfold computeW
    rw [h.isOne]
    by_cases ho : one = true
    · rw [if_pos ho]
      refine ⟨_, rfl, by norm_num, fun _ => rfl, ?_⟩
      have hdn := hone ho
      have e1 : ws (srem n d) rs src.garner = 0 := by
        have := ws_congr (f := srem n d) (h := fun _ => 0 * 0) (rs := rs) (gs := src.garner) fun g _ => by
          rw [srem_of_dvd hd ⟨g, by rw [hdn]⟩]; rfl
        rw [this, ws_smul]; simp
      rw [e1, srem_of_dvd hd ⟨src.product, by rw [hdn]⟩]
      simp only [sW, Bool.false_eq_true, if_false]
      have : (0 : Int) < d := by exact_mod_cast hd
      constructor <;> norm_num <;> linarith
    · rw [if_neg ho, h.thetaOmegaLo, h.thetaOmegaHi, h.thetaOmegaSign]
      obtain ⟨x, hx1, hx2⟩ := sumThetaOmega_eq (n := n) (d := d) (gs := src.garner) (rs := rs) (acc := 0) (A := 0) hd hr (by norm_num)
      rw [hx1]
      simp only [Option.bind_eq_bind, Option.bind_some]
      rw [h.thetaGamma, h.thetaGammaSign]
      have hvt : v * theta false n d src.product ≤ 2 ^ 68 * 2 ^ 126 := Nat.mul_le_mul (hvR.trans hRlt) (theta_le hd)
      have hm : mul256 v (theta false n d src.product) = some (v * theta false n d src.product) := by
        unfold mul256; rw [check_eq (by omega)]; rfl
      rw [hm, Option.bind_some]
      set S : Int := ws (stheta true n d) rs src.garner - v * stheta false n d src.product with hS
      have hx3 : ((if sgn n d src.product then wadd256 x (v * theta false n d src.product)
          else wsub256 x (v * theta false n d src.product) : Nat) : Int) = S % 2 ^ 256 := by
        rw [hS]
        unfold stheta
        rw [zero_add] at hx2
        cases hsg : sgn n d src.product with
        | true =>
          rw [if_pos rfl, if_pos rfl, wadd256, Int.natCast_mod, Nat.cast_add, hx2]
          push_cast
          rw [Int.emod_add_emod, mul_neg, sub_neg_eq_add]; rfl
        | false =>
          rw [if_neg (by simp), if_neg (by simp), wsub256_cast (by omega), hx2, Int.emod_sub_emod]
          push_cast; rfl
      -- headroom
      have hW0 : ws (nd n d) rs src.garner + nd n d src.product * v < 2 ^ 65 ∧ 0 ≤ ws (nd n d) rs src.garner + nd n d src.product * v := by
        have hl := ws_lt (p := fun g => decide (d ∣ n * g)) (rs := rs) (gs := src.garner) (qs := src.moduliU64) hlen hglen hlt
        have hl2 := ws_lt (p := fun g => false) (rs := rs) (gs := src.garner) (qs := src.moduliU64) hlen hglen hlt
        simp only [Bool.false_eq_true, if_false] at hl2
        rw [hws1, ws_one (by omega)] at hl2
        have hpos : 0 < src.moduliU64.sum := by
          obtain ⟨q, hq⟩ := List.exists_mem_of_ne_nil _ hs.ne_nil
          have := List.le_sum_of_mem hq
          have := hbnd q hq
          omega
        have hnn : 0 ≤ ws (nd n d) rs src.garner := ws_nonneg fun g _ => by unfold nd; split <;> omega
        unfold headroom at hH
        change ws (nd n d) rs src.garner ≤ ws (nd n d) src.moduliU64 src.garner ∧ (0 < ws (nd n d) src.moduliU64 src.garner →
          ws (nd n d) rs src.garner < ws (nd n d) src.moduliU64 src.garner) at hl
        by_cases hn : nd n d src.product = 0
        · rw [hn] at hH ⊢
          rw [zero_mul] at hH ⊢
          constructor
          · by_cases h00 : 0 < ws (nd n d) src.moduliU64 src.garner
            · have := hl.2 h00; omega
            · omega
          · omega
        · have hn1 : nd n d src.product = 1 := by
            unfold nd at hn ⊢
            by_cases hdv : decide (d ∣ n * src.product) = true
            · rw [if_pos hdv] at hn; exact absurd rfl hn
            · rw [if_neg hdv]
          rw [hn1] at hH ⊢
          have := hl2.2 (by exact_mod_cast hpos)
          constructor <;> omega
      have hSb : -(2 ^ 126 * (ws (nd n d) rs src.garner + nd n d src.product * v)) ≤ S ∧
          S ≤ 2 ^ 126 * (ws (nd n d) rs src.garner + nd n d src.product * v) := by
        have e1 : ws (stheta true n d) rs src.garner ≤ 2 ^ 126 * ws (nd n d) rs src.garner := by
          rw [← ws_smul]; exact ws_mono fun g _ => (abs_stheta_le hd).2
        have e2 : (-2 ^ 126) * ws (nd n d) rs src.garner ≤ ws (stheta true n d) rs src.garner := by
          rw [← ws_smul]; exact ws_mono fun g _ => by have := (abs_stheta_le (up := true) (n := n) (a := g) hd).1; linarith
        have e3 := abs_stheta_le (up := false) (n := n) (a := src.product) hd
        have e4 := mul_le_mul_of_nonneg_left e3.1 (show (0 : Int) ≤ v by omega)
        have e5 := mul_le_mul_of_nonneg_left e3.2 (show (0 : Int) ≤ v by omega)
        rw [hS]
        constructor <;> linarith
      obtain ⟨p, hp1, hp2, hp3, hp4⟩ := signedW_eq hx3 (by omega) (by omega)
      refine ⟨p, hp1, hp2, fun ho' => absurd ho' ho, ?_⟩
      have hd0 : (0 : Int) < d := by exact_mod_cast hd
      have f1 : 2 ^ 127 * (ws (srem n d) rs src.garner - v * srem n d src.product) ≤ d * S := by
        have e1 : 2 ^ 127 * ws (srem n d) rs src.garner ≤ d * ws (stheta true n d) rs src.garner := by
          rw [← ws_smul, ← ws_smul]; exact ws_mono fun g _ => (stheta_up' hd).1
        have e2 := mul_le_mul_of_nonneg_left (stheta_down' (n := n) (a := src.product) hd).2 (show (0 : Int) ≤ v by omega)
        rw [hS]; linarith
      have f2 : d * S ≤ 2 ^ 127 * (ws (srem n d) rs src.garner - v * srem n d src.product) +
          d * (ws (nd n d) rs src.garner + nd n d src.product * v) := by
        have e1 : ws (fun g => d * stheta true n d g) rs src.garner ≤ ws (fun g => 2 ^ 127 * srem n d g + d * nd n d g) rs src.garner :=
          ws_mono fun g _ => (stheta_up' hd).2
        rw [ws_smul, ws_lin] at e1
        have e2 := mul_le_mul_of_nonneg_left (stheta_down' (n := n) (a := src.product) hd).1 (show (0 : Int) ≤ v by omega)
        rw [hS]
        have : (d : Int) * (ws (stheta true n d) rs src.garner - v * stheta false n d src.product) =
          d * ws (stheta true n d) rs src.garner - v * (d * stheta false n d src.product) := by ring
        rw [this]
        linarith
      have g1 := mul_le_mul_of_nonneg_left hp3 hd0.le
      have g2 := mul_lt_mul_of_pos_left hp4 hd0
      have g3 := mul_lt_mul_of_pos_left hW0.1 hd0
      constructor
      · have : (d : Int) * (S + 2 ^ 126) = d * S + d * 2 ^ 126 := by ring
        rw [this] at g2
        have : (d : Int) * (2 ^ 127 * (sW p + 1)) = d * (2 ^ 127 * sW p) + d * 2 ^ 126 + d * 2 ^ 126 := by ring
        rw [this] at g2
        linarith
      · have : (d : Int) * (S + 2 ^ 126) = d * S + d * 2 ^ 126 := by ring
        rw [this] at g1
        linarith
  obtain ⟨p, hp1, hp2, hp3, hp4, hp5⟩ := hW
  refine ⟨v, c, ws (fun g => roundDiv n d g) rs src.garner - v * roundDiv n d src.product + sW p, ?_, rfl, hcb', ?_, ?_, ?_⟩
  · unfold scale
    rw [h.src_eq, h.dst_eq, check_eq hlen]
    simp only [Option.bind_eq_bind, Option.bind_some]
    rw [check_eq h0, Option.bind_some, check_eq hsz, Option.bind_some, h.thetaGarnerLo, h.thetaGarnerHi, hT1, Option.bind_some, h.shift, hv1,
      Option.bind_some, hp1, Option.bind_some]
    refine mapM_eq_some_map fun i hi => ?_
    have hi := List.mem_range.1 hi
    have hj : start + i < dst.moduliU64.length := by omega
    rw [one_row h hs ht hlen (by omega) hr (by omega) (by omega) hp3 hj]
    simp [List.getD_eq_getElem?_getD, hj]
  · have : 2 ^ 127 * ((n : Int) * (2 * c) - d) < 2 ^ 127 * (d * (2 * (ws (fun g => roundDiv n d g) rs src.garner - v * roundDiv n d src.product + sW p))) := by
      linear_combination 2 * hp4 + 2 * 2 ^ 127 * hrd
    exact lt_of_mul_lt_mul_left this (by norm_num)
  · have : 2 ^ 66 * ((2 : Int) ^ 61 * (d * (2 * (ws (fun g => roundDiv n d g) rs src.garner - v * roundDiv n d src.product + sW p)))) <
        2 ^ 66 * (2 ^ 61 * ((n : Int) * (2 * c) + d) + d) := by
      linear_combination 2 * hp5 - 2 * 2 ^ 127 * hrd
    exact lt_of_mul_lt_mul_left this (by norm_num)
  · intro ho
    have hdn := hone ho
    rw [hp3 ho]
    have hg : ∀ g, roundDiv n d g = g := by
      intro g
      have e1 := (signedRemainder_spec (n := n) (a := g) hd).1
      rw [srem_of_dvd hd ⟨g, by rw [hdn]⟩, add_zero, hdn] at e1
      have hd' : (d : Int) ≠ 0 := by omega
      have := mul_left_cancel₀ hd' e1
      rw [hdn]
      exact_mod_cast this.symm
    rw [hg, hc]
    simp only [hg, sW, Bool.false_eq_true, if_false]
    simp

end RnsScaler
end Fhe
