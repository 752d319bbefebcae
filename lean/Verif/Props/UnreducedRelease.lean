import Verif.Lemmas.UnreducedRelease
import Verif.Props.Unreduced
/-!
# C91: what a release build makes of slots that are not reduced

A build with debug assertions panics when a slot value is at least twice the plaintext modulus (`C85_slots`).  A release build does not.
-/
namespace Fhe.Props
open Fhe Poly Nega ParamsBuilder

variable {b : Build} {s : ParamsBuilder} {par : Par}

/-- C91, no failure: whatever words are given as slots, a release build returns a plaintext, and it is the plaintext of some slots below the
plaintext modulus: nothing distinguishes it from a plaintext that was encoded on purpose. -/
theorem C91_some_slots (hb : b.OK) (h : build b s = Res.ok par.toBfvParameters) (hop : par.nttOperator ≠ none) {level : Nat} (hlev : level < par.moduli.length)
    (hQ : par.plaintext.value ≤ par.modulusAt level) {v : List Nat} (hv : v.length ≤ par.degree) (h64 : ∀ x ∈ v, x < 2 ^ 64) (vt : Bool) :
    ∃ (w : List Nat) (pt : Plaintext), w.length = par.degree ∧ (∀ x ∈ w, x < par.plaintext.value) ∧
      (Release.tryEncodeU64 v ⟨.simd, level⟩ par vt).run.result = some (.ok pt) ∧
      Plaintext.tryEncodeU64 w ⟨.simd, level⟩ par vt = Res.ok pt ∧ pt.decodeU64 none = Res.ok w := by
  obtain ⟨n, hw, -⟩ := build_inv hb h
  obtain ⟨l, hl⟩ := hw.exists_level hlev
  have hQ' := hQ
  rw [← hw.modulusAt_eq hl] at hQ'
  obtain ⟨w, pt, w1, w2, w3, w4⟩ := Release.encodes_some hw hop hl hQ' hv h64 vt
  obtain ⟨ζ, -, c1, -⟩ := C34_simd hb h hop
  obtain ⟨m, -, c2, -⟩ := c1 w level w1.le w2 hlev hQ
  obtain ⟨pt', c3, -, -, c4⟩ := c2 vt
  obtain rfl : pt = pt' := Res.ok_inj.1 (w3.symm.trans c3)
  refine ⟨w, pt, w1, w2, w4, w3, ?_⟩
  rw [c4, padTo_eq_tab, ← NttOperator.tab_of_length w1]

/-- C91, values below twice the modulus: a release build encodes the remainders, as any build does. -/
theorem C91_below_twice (hb : b.OK) (h : build b s = Res.ok par.toBfvParameters) (hop : par.nttOperator ≠ none) {level : Nat} (hlev : level < par.moduli.length)
    (hQ : par.plaintext.value ≤ par.modulusAt level) {v : List Nat} (hv : v.length ≤ par.degree) (h2 : ∀ x ∈ v, x < 2 * par.plaintext.value) (vt : Bool) :
    ∃ pt : Plaintext, (Release.tryEncodeU64 v ⟨.simd, level⟩ par vt).run.result = some (.ok pt) ∧
      Plaintext.tryEncodeU64 (v.map (· % par.plaintext.value)) ⟨.simd, level⟩ par vt = Res.ok pt ∧ pt.decodeU64 none = Res.ok (padTo par.degree (v.map (· % par.plaintext.value))) := by
  obtain ⟨n, hw, -⟩ := build_inv hb h
  have ht := hw.t_pos
  obtain ⟨ζ, -, c1, -⟩ := C34_simd hb h hop
  have hlt : ∀ x ∈ v.map (· % par.plaintext.value), x < par.plaintext.value := by
    intro x hx
    obtain ⟨y, -, rfl⟩ := List.mem_map.1 hx
    exact Nat.mod_lt _ (by omega)
  obtain ⟨m, -, c2, -⟩ := c1 (v.map (· % par.plaintext.value)) level (by simpa using hv) hlt hlev hQ
  obtain ⟨pt, c3, -, -, c4⟩ := c2 vt
  refine ⟨pt, Release.tryEncodeU64_agrees _ _ _ _ _ ?_, c3, c4⟩
  rw [(C85_slots hb h hop hlev hv vt).1 h2]
  exact c3

/-- C91, other values: with every choice of parameters, a value between two and four times the plaintext modulus, given for slot `N / 4` after
zeroes, comes back from a release build as `2^63` in slot `0`, for which `0` was given, and as itself minus `2^63` in slot `N / 4`. -/
theorem C91_other_message (hb : b.OK) (h : build b s = Res.ok par.toBfvParameters) (hop : par.nttOperator ≠ none) {level : Nat} (hlev : level < par.moduli.length)
    (hQ : par.plaintext.value ≤ par.modulusAt level) {x : Nat} (h2 : 2 * par.plaintext.value < x) (h4 : x < 4 * par.plaintext.value) (vt : Bool) :
    ∃ (pt : Plaintext) (w : List Nat), (Release.tryEncodeU64 (List.replicate (par.degree / 4) 0 ++ [x]) ⟨.simd, level⟩ par vt).run.result = some (.ok pt) ∧
      pt.decodeU64 none = Res.ok w ∧ w[0]? = some (2 ^ 63 % par.plaintext.value) ∧ 2 ^ 63 % par.plaintext.value ≠ 0 ∧
      ∃ y, w[par.degree / 4]? = some y ∧ y < par.plaintext.value ∧ (y + 2 ^ 63) % par.plaintext.value = x % par.plaintext.value := by
  obtain ⟨n, hw, -⟩ := build_inv hb h
  have ht := hw.t_pos
  obtain ⟨l, hl⟩ := hw.exists_level hlev
  have hQ' := hQ
  rw [← hw.modulusAt_eq hl] at hQ'
  have h3 := hw.three_le
  have hq2 : 2 ≤ par.degree / 4 := by
    have : 2 ^ 3 ≤ 2 ^ n := Nat.pow_le_pow_right (by norm_num) h3
    rw [hw.degree]; omega
  have hne : (2 ^ 63 % par.plaintext.value) ≠ 0 := by
    obtain ⟨op, hop'⟩ := Option.ne_none_iff_exists'.1 hop
    obtain ⟨ω, ωi, mm, h1, hp, -⟩ := hw.op_wf hop'
    intro h0
    have hd : par.plaintext.value ∣ 2 := (hp ▸ h1.prime).dvd_of_dvd_pow (Nat.dvd_of_mod_eq_zero h0)
    have hs := h1.sizeInv
    have : Fact op.p.p.Prime := ⟨h1.prime⟩
    rw [show (2 : ZMod op.p.p) = ((2 : Nat) : ZMod op.p.p) by norm_num, (ZMod.natCast_eq_zero_iff 2 op.p.p).2 (by rw [hp]; exact hd), zero_pow (by omega), mul_zero] at hs
    exact zero_ne_one hs
  obtain ⟨H, hH⟩ : ∃ H, H = 2 ^ 63 := ⟨_, rfl⟩
  rw [← hH] at hne ⊢
  obtain ⟨pt, e1, e2⟩ := Release.encodes_wrong hw hop hl hQ' (H := H) (by omega) h2 h4 vt
  have hlt : ∀ y ∈ Release.wrongSlots H par.plaintext.value par.degree x, y < par.plaintext.value := by
    intro y hy
    simp only [Release.wrongSlots, List.mem_cons, List.mem_append, List.mem_replicate, List.not_mem_nil, or_false] at hy
    rcases hy with rfl | ⟨-, rfl⟩ | rfl
    · exact Nat.mod_lt _ (by omega)
    · omega
    · exact Nat.mod_lt _ (by omega)
  obtain ⟨ζ, -, c1, -⟩ := C34_simd hb h hop
  have hwl : (Release.wrongSlots H par.plaintext.value par.degree x).length = par.degree / 4 + 1 := by simp [Release.wrongSlots]; omega
  obtain ⟨m, -, c2, -⟩ := c1 _ level (by rw [hwl]; omega) hlt hlev hQ
  obtain ⟨pt', c3, -, -, c4⟩ := c2 vt
  obtain rfl : pt = pt' := Res.ok_inj.1 (e1.symm.trans c3)
  refine ⟨pt, _, e2, c4, ?_, hne, (x + (par.plaintext.value - 1) * H) % par.plaintext.value, ?_, Nat.mod_lt _ (by omega), ?_⟩
  · rw [padTo_eq_tab, tab_get? _ (by omega)]; rfl
  · rw [padTo_eq_tab, tab_get? _ (by omega)]
    unfold Release.wrongSlots
    rw [show par.degree / 4 = par.degree / 4 - 1 + 1 by omega, List.getD_cons_succ, Nat.add_sub_cancel, List.getD_append_right _ _ _ _ (by simp)]; simp
  · rw [Nat.mod_add_mod, Nat.add_assoc, show (par.plaintext.value - 1) * H + H = par.plaintext.value * H by
      obtain ⟨k, hk⟩ : ∃ k, par.plaintext.value = k + 1 := ⟨par.plaintext.value - 1, by omega⟩
      rw [hk, Nat.add_sub_cancel]; ring, Nat.add_mul_mod_self_left]

/-- With `t = 17` and eight slots: forty, given for slot 2, is encoded without complaint; slot 0, given zero, then holds `9`, and slot 2 holds
`14` instead of `40 mod 17 = 6`.  A build with debug assertions panics. -/
example : ∃ (par : Par) (pt : Plaintext) (w : List Nat), build luckyBuild exBuilder = Res.ok par.toBfvParameters ∧
    (Release.tryEncodeU64 [0, 0, 40] ⟨.simd, 0⟩ par true).run.result = some (.ok pt) ∧ pt.decodeU64 none = Res.ok w ∧ w[0]? = some 9 ∧ w[2]? = some 14 ∧
    Plaintext.tryEncodeU64 [0, 0, 40] ⟨.simd, 0⟩ par true = Res.panic := by
  obtain ⟨par, h, hd, ht, hm, hop, h0, -, -⟩ := exParams
  have hlev : 0 < par.moduli.length := by rw [hm]; decide
  obtain ⟨pt, w, e1, e2, e3, -, y, e4, e5, e6⟩ := C91_other_message luckyBuild_ok h hop hlev (by rw [h0, ht]; norm_num) (x := 40) (by rw [ht]; norm_num) (by rw [ht]; norm_num) true
  rw [hd] at e1 e4
  rw [ht] at e3 e5 e6
  refine ⟨par, pt, w, h, e1, e2, e3, ?_, (C85_slots luckyBuild_ok h hop hlev (by rw [hd]; decide) true).2.1 ⟨40, by simp, by rw [ht]; norm_num⟩⟩
  rw [show (8 : Nat) / 4 = 2 from rfl] at e4
  rw [e4]
  congr 1
  omega

/-- The other statements at these parameters, with the largest word and with values below `34`. -/
example : ∃ (par : Par) (pt pt' : Plaintext) (w : List Nat), build luckyBuild exBuilder = Res.ok par.toBfvParameters ∧ w.length = 8 ∧ (∀ x ∈ w, x < 17) ∧
    (Release.tryEncodeU64 [2 ^ 64 - 1, 1000, 2 ^ 63] ⟨.simd, 1⟩ par false).run.result = some (.ok pt) ∧ pt.decodeU64 none = Res.ok w ∧
    (Release.tryEncodeU64 [33, 17, 5] ⟨.simd, 1⟩ par false).run.result = some (.ok pt') ∧ pt'.decodeU64 none = Res.ok [16, 0, 5, 0, 0, 0, 0, 0] := by
  obtain ⟨par, h, hd, ht, hm, hop, -, h1, -⟩ := exParams
  have hlev : 1 < par.moduli.length := by rw [hm]; decide
  obtain ⟨w, pt, a1, a2, a3, -, a4⟩ := C91_some_slots luckyBuild_ok h hop hlev (by rw [h1, ht]; norm_num) (v := [2 ^ 64 - 1, 1000, 2 ^ 63]) (by rw [hd]; decide) (by decide) false
  obtain ⟨pt', b1, -, b3⟩ := C91_below_twice luckyBuild_ok h hop hlev (by rw [h1, ht]; norm_num) (v := [33, 17, 5]) (by rw [hd]; decide) (by rw [ht]; decide) false
  exact ⟨par, pt, pt', w, h, by rw [a1, hd], by rw [ht] at a2; exact a2, a3, a4, b1, by rw [b3, hd, ht]; rfl⟩

end Fhe.Props
