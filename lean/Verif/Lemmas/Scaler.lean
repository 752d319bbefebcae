import Verif.Lemmas.Rns
/-! The RNS scaler: closed forms of its constants. -/
namespace Fhe
open Finset

theorem mapM_get? {α β : Type} {f : α → Option β} {l : List α} {l' : List β} (h : l.mapM f = some l') {j : Nat} {a : α}
    (hj : l[j]? = some a) : ∃ b, l'[j]? = some b ∧ f a = some b := by
  induction l generalizing l' j with
  | nil => simp at hj
  | cons x l ih =>
    rw [List.mapM_cons] at h
    cases ha : f x with
    | none => simp [ha] at h
    | some sa =>
      cases hl : l.mapM f with
      | none => simp [ha, hl] at h
      | some ls' =>
        simp only [ha, hl, Option.bind_eq_bind, Option.bind_some] at h
        obtain rfl : sa :: ls' = l' := Option.some.inj h
        cases j with
        | zero =>
          simp only [List.getElem?_cons_zero, Option.some.injEq] at hj
          exact ⟨sa, rfl, hj ▸ ha⟩
        | succ j => exact ih hl (by simpa using hj)

theorem mapM_some_of {α β : Type} {f : α → Option β} {l : List α} (h : ∀ a ∈ l, ∃ b, f a = some b) : ∃ l', l.mapM f = some l' := by
  induction l with
  | nil => exact ⟨[], rfl⟩
  | cons a l ih =>
    obtain ⟨b, hb⟩ := h a (by simp)
    obtain ⟨l', hl⟩ := ih fun x hx => h x (by simp [hx])
    exact ⟨b :: l', by rw [List.mapM_cons, hb, hl]; rfl⟩

namespace RnsScaler

/-- `round(n a / d)`, halves up. -/
def roundDiv (n d a : Nat) : Nat := (n * a + d >>> 1) / d

/-- The remainder of that division, in `[-d/2, d/2]`. -/
def srem (n d a : Nat) : Int := if (signedRemainder (n * a) d).2 then -((signedRemainder (n * a) d).1 : Int) else (signedRemainder (n * a) d).1

/-- The scaled magnitude, as computed. -/
def theta (up : Bool) (n d a : Nat) : Nat :=
  let t := (signedRemainder (n * a) d).1
  let sign := (signedRemainder (n * a) d).2
  if up then if sign then (t <<< 127) / d else (t <<< 127 + d - 1) / d
  else if sign then (t <<< 127 + d - 1) / d else (t <<< 127) / d

def sgn (n d a : Nat) : Bool := (signedRemainder (n * a) d).2

/-- The scaled remainder with its sign. -/
def stheta (up : Bool) (n d a : Nat) : Int := if sgn n d a then -(theta up n d a : Int) else theta up n d a

theorem signedRemainder_spec {n d a : Nat} (hd : 0 < d) :
    (n * a : Int) = d * (roundDiv n d a : Int) + srem n d a ∧ 2 * (signedRemainder (n * a) d).1 ≤ d := by
  unfold roundDiv srem
  rw [Nat.shiftRight_eq_div_pow, pow_one]
  have hdm := Nat.div_add_mod (n * a) d
  have hlt := Nat.mod_lt (n * a) hd
  have hsmall : n * a % d + d / 2 < d → (n * a + d / 2) / d = n * a / d := by
    intro h
    conv_lhs => rw [← hdm]
    rw [Nat.add_assoc, Nat.mul_add_div hd, Nat.div_eq_of_lt h, Nat.add_zero]
  have hbig : d ≤ n * a % d + d / 2 → (n * a + d / 2) / d = n * a / d + 1 := by
    intro h
    conv_lhs => rw [← hdm]
    rw [Nat.add_assoc, Nat.mul_add_div hd]
    congr 1
    rw [Nat.div_eq_iff hd]; omega
  have hcast : (n : Int) * a = d * (n * a / d : Nat) + (n * a % d : Nat) := by exact_mod_cast hdm.symm
  have key : (signedRemainder (n * a) d = (d - n * a % d, true) ∧ d ≤ n * a % d + d / 2 ∧ d ≤ 2 * (n * a % d)) ∨
      (signedRemainder (n * a) d = (n * a % d, false) ∧ n * a % d + d / 2 < d) := by
    unfold signedRemainder
    rw [Nat.shiftRight_eq_div_pow, pow_one]
    generalize n * a % d = t at *
    by_cases h1 : d > 1
    · rw [if_pos h1]
      by_cases h2 : d % 2 = 1
      · rw [if_pos h2]
        by_cases h3 : t > d / 2
        · rw [if_pos h3]; exact Or.inl ⟨rfl, by omega, by omega⟩
        · rw [if_neg h3]; exact Or.inr ⟨rfl, by omega⟩
      · rw [if_neg h2]
        by_cases h3 : t ≥ d / 2
        · rw [if_pos h3]; exact Or.inl ⟨rfl, by omega, by omega⟩
        · rw [if_neg h3]; exact Or.inr ⟨rfl, by omega⟩
    · rw [if_neg h1]; exact Or.inr ⟨rfl, by omega⟩
  rcases key with ⟨h, h1, h2⟩ | ⟨h, h1⟩
  · rw [h, hbig h1]
    refine ⟨?_, by dsimp only; omega⟩
    rw [if_pos rfl, hcast, Nat.cast_sub hlt.le]; push_cast; ring
  · rw [h, hsmall h1]
    refine ⟨?_, by dsimp only; omega⟩
    rw [if_neg (by simp)]; exact hcast

theorem div_bounds (x d : Nat) (hd : 0 < d) : d * (x / d) ≤ x ∧ x < d * (x / d) + d := by
  have := Nat.div_add_mod x d
  have := Nat.mod_lt x hd
  omega
theorem ceil_bounds (x d : Nat) (hd : 0 < d) : x ≤ d * ((x + d - 1) / d) ∧ d * ((x + d - 1) / d) < x + d := by
  have := div_bounds (x + d - 1) d hd
  omega

theorem theta_le {up : Bool} {n d a : Nat} (hd : 0 < d) : theta up n d a ≤ 2 ^ 126 := by
  have h := (signedRemainder_spec (n := n) (a := a) hd).2
  unfold theta
  generalize (signedRemainder (n * a) d).1 = t at *
  generalize (signedRemainder (n * a) d).2 = sg at *
  have h1 : t <<< 127 ≤ d * 2 ^ 126 := by
    rw [Nat.shiftLeft_eq]; nlinarith
  have hf : t <<< 127 / d ≤ 2 ^ 126 := Nat.div_le_of_le_mul h1
  have hc : (t <<< 127 + d - 1) / d ≤ 2 ^ 126 := by
    have := (ceil_bounds (t <<< 127) d hd).2
    have h2 : d * ((t <<< 127 + d - 1) / d) < d * (2 ^ 126 + 1) := by rw [Nat.mul_add, Nat.mul_one]; omega
    exact Nat.lt_succ_iff.1 (Nat.lt_of_mul_lt_mul_left h2)
  cases up <;> cases sg <;> simp only [if_true, if_false, Bool.false_eq_true]
  · exact hf
  · exact hc
  · exact hc
  · exact hf

theorem stheta_up {n d a : Nat} (hd : 0 < d) :
    2 ^ 127 * srem n d a ≤ d * stheta true n d a ∧ d * stheta true n d a < 2 ^ 127 * srem n d a + d := by
  unfold stheta theta srem sgn
  dsimp only
  generalize (signedRemainder (n * a) d).1 = t
  generalize (signedRemainder (n * a) d).2 = sg
  have hs : (2 : Int) ^ 127 * t = ((t <<< 127 : Nat) : Int) := by rw [Nat.shiftLeft_eq]; push_cast; ring
  have h1 := div_bounds (t <<< 127) d hd
  have h2 := ceil_bounds (t <<< 127) d hd
  generalize t <<< 127 = x at *
  generalize x / d = z at *
  generalize (x + d - 1) / d = y at *
  cases sg with
  | true =>
    simp only [if_true, mul_neg, hs]
    zify at h1; constructor <;> linarith [h1.1, h1.2]
  | false =>
    simp only [if_true, Bool.false_eq_true, if_false, hs]
    zify at h2; constructor <;> linarith [h2.1, h2.2]

theorem stheta_down {n d a : Nat} (hd : 0 < d) :
    2 ^ 127 * srem n d a - d < d * stheta false n d a ∧ d * stheta false n d a ≤ 2 ^ 127 * srem n d a := by
  unfold stheta theta srem sgn
  dsimp only
  generalize (signedRemainder (n * a) d).1 = t
  generalize (signedRemainder (n * a) d).2 = sg
  have hs : (2 : Int) ^ 127 * t = ((t <<< 127 : Nat) : Int) := by rw [Nat.shiftLeft_eq]; push_cast; ring
  have h1 := div_bounds (t <<< 127) d hd
  have h2 := ceil_bounds (t <<< 127) d hd
  generalize t <<< 127 = x at *
  generalize x / d = z at *
  generalize (x + d - 1) / d = y at *
  cases sg with
  | true =>
    simp only [if_true, Bool.false_eq_true, if_false, mul_neg, hs]
    zify at h2; constructor <;> linarith [h2.1, h2.2]
  | false =>
    simp only [Bool.false_eq_true, if_false, hs]
    zify at h1; constructor <;> linarith [h1.1, h1.2]

theorem signedRemainder_of_dvd {x d : Nat} (_hd : 0 < d) (h : d ∣ x) : signedRemainder x d = (0, false) := by
  have : x % d = 0 := Nat.mod_eq_zero_of_dvd h
  unfold signedRemainder
  rw [Nat.shiftRight_eq_div_pow, this]
  simp only [pow_one]
  split
  · split
    · rw [if_neg (by omega)]
    · rw [if_neg (by omega)]
  · rfl

theorem theta_of_dvd {up : Bool} {n d a : Nat} (hd : 0 < d) (h : d ∣ n * a) : theta up n d a = 0 := by
  unfold theta
  rw [signedRemainder_of_dvd hd h]
  cases up <;> simp
  omega

theorem srem_of_dvd {n d a : Nat} (hd : 0 < d) (h : d ∣ n * a) : srem n d a = 0 := by
  unfold srem; rw [signedRemainder_of_dvd hd h]; simp

theorem splitWords_eq {t : Nat} (h : t < 2 ^ 128) : splitWords t = some (t % 2 ^ 64, t / 2 ^ 64) := by
  unfold splitWords
  have : t >>> 64 = t / 2 ^ 64 := Nat.shiftRight_eq_div_pow _ _
  rw [this, check_eq (by omega)]
  simp only [Option.bind_eq_bind, Option.bind_some, Nat.shiftLeft_eq, pure]
  congr 2
  omega

theorem joinWords_eq (t : Nat) : joinWords (t % 2 ^ 64) (t / 2 ^ 64) = t := by
  unfold joinWords
  rw [Nat.or_comm, ← Nat.shiftLeft_add_eq_or_of_lt (Nat.mod_lt _ (by norm_num)), Nat.shiftLeft_eq]
  omega

theorem extract_eq {ctx : RnsContext} (hc : ctx.WF) {a n d : Nat} (hd : 0 < d) (up : Bool) :
    extractProjectionAndTheta ctx a n d up =
      some (ctx.moduliU64.map (roundDiv n d a % ·), theta up n d a % 2 ^ 64, theta up n d a / 2 ^ 64, sgn n d a) := by
  have hle := theta_le (up := up) (n := n) (a := a) hd
  unfold extractProjectionAndTheta
  rw [check_eq (by omega)]
  simp only [Option.bind_eq_bind, Option.bind_some]
  rw [show (n * a + d >>> 1) / d = roundDiv n d a from rfl, RnsContext.project_eq hc, Option.bind_some]
  have : (if up = true then if (signedRemainder (n * a) d).2 = true then (signedRemainder (n * a) d).1 <<< 127 / d
            else ((signedRemainder (n * a) d).1 <<< 127 + d - 1) / d
          else if (signedRemainder (n * a) d).2 = true then ((signedRemainder (n * a) d).1 <<< 127 + d - 1) / d
            else (signedRemainder (n * a) d).1 <<< 127 / d) = theta up n d a := rfl
  rw [this, splitWords_eq (by omega)]
  rfl

/-- The scaled Garner quotients. -/
def gtheta (s Q g : Nat) : Nat := (g <<< s + Q >>> 1) / Q

theorem gtheta_le {s Q g : Nat} (h : g < Q) : gtheta s Q g ≤ 2 ^ s := by
  unfold gtheta
  rw [Nat.shiftRight_eq_div_pow, Nat.shiftLeft_eq, pow_one]
  have h1 : g * 2 ^ s + Q / 2 < Q * (2 ^ s + 1) := by
    have : g * 2 ^ s ≤ Q * 2 ^ s := Nat.mul_le_mul_right _ h.le
    rw [Nat.mul_add]; omega
  exact Nat.lt_succ_iff.1 (Nat.div_lt_of_lt_mul h1)

theorem gtheta_bounds {s Q g : Nat} (h : g < Q) :
    2 * (g * 2 ^ s) ≤ 2 * (Q * gtheta s Q g) + Q ∧ 2 * (Q * gtheta s Q g) ≤ 2 * (g * 2 ^ s) + Q := by
  have := div_bounds (g <<< s + Q >>> 1) Q (by omega)
  rw [show (g <<< s + Q >>> 1) / Q = gtheta s Q g from rfl, Nat.shiftRight_eq_div_pow, Nat.shiftLeft_eq, pow_one] at this
  omega

theorem ceilLog2_spec {a : Nat} (h : 1 < a) : a ≤ 2 ^ ceilLog2 a ∧ 2 ^ ceilLog2 a < 2 * a := by
  unfold ceilLog2
  rw [if_neg (by omega)]
  have h1 := Nat.lt_log2_self (n := a - 1)
  have h2 := Nat.log2_self_le (n := a - 1) (by omega)
  rw [pow_succ] at *
  omega

/-- The shift leaves room: `2^64 ≤ ...`; with at most 64 moduli it is between 123 and 127, and the total of the residues is
small against it. -/
theorem garnerShift_eq {l : List Nat} (hne : l ≠ []) (hq : ∀ q ∈ l, 2 ≤ q ∧ q < 2 ^ 62) (hk : l.length ≤ 64) :
    ∃ s, garnerShift l = some s ∧ 123 ≤ s ∧ s ≤ 127 := by
  have hlen : 1 ≤ l.length := List.length_pos_of_ne_nil hne
  have hmap : ∀ q ∈ l, (do
      let x ← mul128 q l.length
      check (x ≤ 2 ^ 127)
      subU 191 (ceilLog2 x)) = some (191 - ceilLog2 (q * l.length)) ∧ ceilLog2 (q * l.length) ≤ 68 := by
    intro q hqm
    obtain ⟨h2, h62⟩ := hq q hqm
    have hle : q * l.length ≤ 2 ^ 62 * 64 := Nat.mul_le_mul (by omega) hk
    have hge : 2 * 1 ≤ q * l.length := Nat.mul_le_mul h2 hlen
    have hc : ceilLog2 (q * l.length) ≤ 68 := by
      by_contra hc
      have h3 := (ceilLog2_spec (a := q * l.length) (by omega)).2
      have : 2 ^ 69 ≤ 2 ^ ceilLog2 (q * l.length) := Nat.pow_le_pow_right (by norm_num) (by omega)
      omega
    refine ⟨?_, hc⟩
    rw [mul128_eq (by omega)]
    simp only [Option.bind_eq_bind, Option.bind_some]
    rw [check_eq (by omega), Option.bind_some, subU_eq (by omega)]
  unfold garnerShift
  rw [mapM_eq_some_map (g := fun q => 191 - ceilLog2 (q * l.length)) (fun q hq => (hmap q hq).1)]
  simp only [Option.bind_eq_bind, Option.bind_some]
  cases hm : (l.map fun q => 191 - ceilLog2 (q * l.length)).min? with
  | none => rw [List.min?_eq_none_iff, List.map_eq_nil_iff] at hm; exact absurd hm hne
  | some s =>
    refine ⟨min s 127, rfl, ?_, Nat.min_le_right _ _⟩
    have := List.min?_mem hm
    obtain ⟨q, hq, rfl⟩ := List.mem_map.1 this
    have := (hmap q hq).2
    omega

/-- What the constructor establishes. -/
structure SC (sc : RnsScaler) (src dst : RnsContext) (n d s : Nat) (one : Bool) : Prop where
  src_eq : sc.src = src
  dst_eq : sc.dst = dst
  isOne : sc.factor.isOne = one
  gamma : ∀ (j : Nat) (m : Modulus), dst.moduli[j]? = some m → ∃ gs, sc.gamma[j]? = some (roundDiv n d src.product % m.p) ∧
    sc.gammaShoup[j]? = some gs ∧ m.shoup (roundDiv n d src.product % m.p) = some gs
  thetaGamma : joinWords sc.thetaGammaLo sc.thetaGammaHi = theta false n d src.product
  thetaGammaSign : sc.thetaGammaSign = sgn n d src.product
  omega : ∀ (j : Nat) (m : Modulus), dst.moduli[j]? = some m → ∃ rows, sc.omega[j]? = some (src.garner.map fun g => roundDiv n d g % m.p) ∧
    sc.omegaShoup[j]? = some rows ∧ (src.garner.map fun g => roundDiv n d g % m.p).mapM m.shoup = some rows
  thetaOmegaLo : sc.thetaOmegaLo = src.garner.map fun g => theta true n d g % 2 ^ 64
  thetaOmegaHi : sc.thetaOmegaHi = src.garner.map fun g => theta true n d g / 2 ^ 64
  thetaOmegaSign : sc.thetaOmegaSign = src.garner.map fun g => sgn n d g
  thetaGarnerLo : sc.thetaGarnerLo = src.garner.map fun g => gtheta s src.product g % 2 ^ 64
  thetaGarnerHi : sc.thetaGarnerHi = src.garner.map fun g => gtheta s src.product g / 2 ^ 64
  shift : sc.thetaGarnerShift = s
  shift_eq : garnerShift src.moduliU64 = some s
  shift_ge : 123 ≤ s
  shift_le : s ≤ 127

theorem new_eq {src dst : RnsContext} (hs : src.WF) (ht : dst.WF) {f : ScalingFactor} (hd : 0 < f.denominator)
    (hk : src.moduliU64.length ≤ 64) :
    ∃ sc s, new src dst f = some sc ∧ SC sc src dst f.numerator f.denominator s f.isOne := by
  obtain ⟨s, hs1, hs2, hs3⟩ := garnerShift_eq hs.ne_nil hs.bounds hk
  have hgarner : ∀ g ∈ src.garner, (do
      check (src.product ≠ 0)
      splitWords ((g <<< s + src.product >>> 1) / src.product)) =
      some (gtheta s src.product g % 2 ^ 64, gtheta s src.product g / 2 ^ 64) := by
    intro g hg
    have hlt := hs.garner_lt g hg
    have hp : 2 ^ s ≤ 2 ^ 127 := Nat.pow_le_pow_right (by norm_num) hs3
    have := gtheta_le (s := s) hlt
    rw [check_eq (by omega)]
    simp only [Option.bind_eq_bind, Option.bind_some]
    exact splitWords_eq (t := gtheta s src.product g) (by omega)
  have hgs : ∃ gs, ((dst.moduliU64.map (roundDiv f.numerator f.denominator src.product % ·)).zip dst.moduli).mapM (fun wq => wq.2.shoup wq.1) = some gs := by
    apply mapM_some_of
    rintro ⟨w, m⟩ hwm
    obtain ⟨j, hj, he⟩ := List.getElem_of_mem hwm
    rw [List.length_zip, List.length_map] at hj
    rw [List.getElem_zip, List.getElem_map] at he
    obtain ⟨rfl, rfl⟩ := Prod.mk.inj he
    obtain ⟨m, h1, h2, h3⟩ := ht.moduli j (by omega)
    rw [List.getElem?_eq_getElem (by omega), Option.some.injEq] at h1
    rw [h1]
    refine ⟨_, Modulus.shoup_eq h2 ?_⟩
    rw [h3]; exact Nat.mod_lt _ (by rw [← h3]; exact h2.pos)
  obtain ⟨gs, hgs⟩ := hgs
  let E : Nat → List Nat × Nat × Nat × Bool := fun g => (dst.moduliU64.map (roundDiv f.numerator f.denominator g % ·),
    theta true f.numerator f.denominator g % 2 ^ 64, theta true f.numerator f.denominator g / 2 ^ 64, sgn f.numerator f.denominator g)
  have hE : (src.garner.mapM fun g => extractProjectionAndTheta dst g f.numerator f.denominator true) = some (src.garner.map E) :=
    mapM_eq_some_map fun g _ => extract_eq ht hd true
  have hom : ((List.range dst.moduli.length).mapM fun j => do
      let qj ← dst.moduli[j]?
      (src.garner.map E).mapM fun o => do qj.reduce (← o.1[j]?)) =
      some ((List.range dst.moduli.length).map fun j => src.garner.map fun g => roundDiv f.numerator f.denominator g % dst.moduliU64.getD j 0) := by
    refine mapM_eq_some_map fun j hj => ?_
    have hj := List.mem_range.1 hj
    rw [ht.len_moduli] at hj
    obtain ⟨m, h1, h2, h3⟩ := ht.moduli j hj
    rw [h1]
    simp only [Option.bind_eq_bind, Option.bind_some]
    rw [mapM_eq_some_map (g := fun o => o.1.getD j 0)]
    · rw [List.map_map]
      congr 1
      refine List.map_congr_left fun g _ => ?_
      simp [E, List.getD_eq_getElem?_getD, hj]
    · intro o ho
      obtain ⟨g, hg, rfl⟩ := List.mem_map.1 ho
      have hb := ht.bounds _ (List.getElem_mem hj)
      have hlt : roundDiv f.numerator f.denominator g % dst.moduliU64[j] < dst.moduliU64[j] := Nat.mod_lt _ (by omega)
      simp only [E, List.getElem?_map, List.getElem?_eq_getElem hj, Option.map_some, Option.bind_some, List.getD_eq_getElem?_getD, Option.getD_some]
      rw [Modulus.reduce_eq h2 (by omega), h3, Nat.mod_eq_of_lt hlt]
  have hrow : ∀ (j : Nat) (m : Modulus), dst.moduli[j]? = some m →
      ((List.range dst.moduli.length).map fun j => src.garner.map fun g => roundDiv f.numerator f.denominator g % dst.moduliU64.getD j 0)[j]? =
        some (src.garner.map fun g => roundDiv f.numerator f.denominator g % m.p) ∧ m.WF := by
    intro j m hm
    have hj : j < dst.moduli.length := (List.getElem?_eq_some_iff.1 hm).1
    have hj' := hj
    rw [ht.len_moduli] at hj'
    obtain ⟨m', h1, h2, h3⟩ := ht.moduli j hj'
    rw [hm] at h1
    obtain rfl : m = m' := Option.some.inj h1
    rw [List.getElem?_map, List.getElem?_range hj, Option.map_some, h3]
    refine ⟨?_, h2⟩
    simp [List.getD_eq_getElem?_getD, hj']
  have hos : ∃ os, (dst.moduli.zip ((List.range dst.moduli.length).map fun j => src.garner.map fun g =>
      roundDiv f.numerator f.denominator g % dst.moduliU64.getD j 0)).mapM (fun qo => qo.2.mapM qo.1.shoup) = some os := by
    apply mapM_some_of
    rintro ⟨m, o⟩ hmo
    obtain ⟨j, hj, he⟩ := List.getElem_of_mem hmo
    have hz : (dst.moduli.zip ((List.range dst.moduli.length).map fun j => src.garner.map fun g =>
      roundDiv f.numerator f.denominator g % dst.moduliU64.getD j 0))[j]? = some (m, o) := by rw [List.getElem?_eq_getElem hj, he]
    rw [List.getElem?_zip_eq_some] at hz
    obtain ⟨h1, h2⟩ := hz
    obtain ⟨h3, h4⟩ := hrow j m h1
    rw [h3] at h2
    obtain rfl := Option.some.inj h2
    refine ⟨_, Modulus.shoupVec_eq h4 ?_⟩
    intro x hx
    obtain ⟨g, -, rfl⟩ := List.mem_map.1 hx
    exact Nat.mod_lt _ h4.pos
  obtain ⟨os, hos⟩ := hos
  refine ⟨{ src, dst, factor := f, gamma := dst.moduliU64.map (roundDiv f.numerator f.denominator src.product % ·), gammaShoup := gs,
            thetaGammaLo := theta false f.numerator f.denominator src.product % 2 ^ 64,
            thetaGammaHi := theta false f.numerator f.denominator src.product / 2 ^ 64,
            thetaGammaSign := sgn f.numerator f.denominator src.product,
            omega := (List.range dst.moduli.length).map fun j => src.garner.map fun g =>
              roundDiv f.numerator f.denominator g % dst.moduliU64.getD j 0,
            omegaShoup := os, thetaOmegaLo := (src.garner.map E).map (·.2.1), thetaOmegaHi := (src.garner.map E).map (·.2.2.1),
            thetaOmegaSign := (src.garner.map E).map (·.2.2.2),
            thetaGarnerLo := (src.garner.map fun g => (gtheta s src.product g % 2 ^ 64, gtheta s src.product g / 2 ^ 64)).map (·.1),
            thetaGarnerHi := (src.garner.map fun g => (gtheta s src.product g % 2 ^ 64, gtheta s src.product g / 2 ^ 64)).map (·.2),
            thetaGarnerShift := s }, s, ?_, ?_⟩
  · unfold new
    rw [extract_eq ht hd false]
    simp only [Option.bind_eq_bind, Option.bind_some]
    rw [hgs, Option.bind_some, hE, Option.bind_some]
    simp only [Option.bind_eq_bind] at hom
    rw [hom, Option.bind_some, hos, Option.bind_some, hs1, Option.bind_some]
    simp only [Option.bind_eq_bind] at hgarner
    rw [mapM_eq_some_map hgarner, Option.bind_some]
    rfl
  · exact {
      src_eq := rfl, dst_eq := rfl, isOne := rfl
      gamma := by
        intro j m hm
        have hj : j < dst.moduli.length := (List.getElem?_eq_some_iff.1 hm).1
        rw [ht.len_moduli] at hj
        obtain ⟨m', h1, h2, h3⟩ := ht.moduli j hj
        rw [hm] at h1
        obtain rfl : m = m' := Option.some.inj h1
        have hg : (dst.moduliU64.map (roundDiv f.numerator f.denominator src.product % ·))[j]? =
            some (roundDiv f.numerator f.denominator src.product % m.p) := by
          rw [List.getElem?_map, List.getElem?_eq_getElem hj, h3]; rfl
        obtain ⟨b, hb1, hb2⟩ := mapM_get? hgs (j := j) (a := (roundDiv f.numerator f.denominator src.product % m.p, m))
          (List.getElem?_zip_eq_some.2 ⟨hg, hm⟩)
        exact ⟨b, hg, hb1, hb2⟩
      thetaGamma := joinWords_eq _
      thetaGammaSign := rfl
      omega := by
        intro j m hm
        obtain ⟨h3, h4⟩ := hrow j m hm
        obtain ⟨b, hb1, hb2⟩ := mapM_get? hos (j := j) (a := (m, src.garner.map fun g => roundDiv f.numerator f.denominator g % m.p))
          (List.getElem?_zip_eq_some.2 ⟨hm, h3⟩)
        exact ⟨b, h3, hb1, hb2⟩
      thetaOmegaLo := by simp [E]
      thetaOmegaHi := by simp [E]
      thetaOmegaSign := by simp [E]
      thetaGarnerLo := by simp
      thetaGarnerHi := by simp
      shift := rfl, shift_eq := hs1, shift_ge := hs2, shift_le := hs3 }

end RnsScaler
end Fhe
