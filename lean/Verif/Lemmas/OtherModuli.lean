import Verif.Lemmas.OtherDegree
import Verif.Lemmas.RqParse
import Verif.Spec.OtherModuli
/-! Reading what was written for a ring with other moduli. -/
namespace Fhe
open NttOperator Nega

namespace Poly
variable {b : Build} {c c' : Context} {n n' : Nat} {r : Rep} {vt vt' : Bool}

/-- What is read from the bytes of a polynomial of a ring of the same degree whose moduli have the same numbers of bits. -/
theorem fromBytes_sizes (h : c.WF b n) (h' : c'.WF b n') (hn : n' ≤ 31) (hL : c'.moduli.length * (8 * c'.degree) ≤ 2 ^ 63) (hm : c'.moduli.map Sizes.bits = c.moduli.map Sizes.bits) (hd : c'.degree = c.degree) (f : c'.Elem) :
    ∃ bytes, (enc c' r vt f).toBytes = some bytes ∧
      (r = .powerBasis → fromBytes r bytes c = some (.ok { ctx := c, vt := false, coeffs := (enc c' .powerBasis false f).coeffs, shoup := none, hasLazy := false })) ∧
      (r ≠ .powerBasis → ∃ g, fromBytes r bytes c = some (.ok (enc c r false g)) ∧ ∀ vt', Reread c' c (enc c' r vt f) (enc c r vt' g)) := by
  obtain ⟨m, h1, h2, h3, h4, h5, h6, h7⟩ := toRq_parse (r := r) (vt := vt) h' hn f
  have hdeg : m.degree < 2 ^ 32 := by
    rw [h3, h'.level.degree]; exact lt_of_le_of_lt (Nat.pow_le_pow_right (by norm_num) hn) (by norm_num)
  have hr : 0 ≤ m.representation ∧ m.representation < 4 := by rw [h2]; cases r <;> decide
  obtain ⟨k1, k2, k3⟩ := RqMsg.codec hr hdeg h5 (le_trans h6 hL)
  have hbits : c'.q.map (·.nbits) = c.q.map (·.nbits) := by rw [map_nbits h, map_nbits h', hm]
  have hlen : c'.ops.length = c.ops.length := by
    have := congrArg List.length hbits
    rw [List.length_map, List.length_map, h.level.q, h'.level.q, List.length_map, List.length_map] at this
    exact this
  rw [parseProto_congr (c := c) hbits] at h7
  obtain ⟨hrl, hrows⟩ := coeffs_shape (r := .powerBasis) (vt := false) h' f
  have := h'.neZero
  have hrow : List.Forall₂ (fun row (op : NttOperator) => row.length = c.degree ∧ ∀ x ∈ row, x < 2 * op.p.p) (enc c' .powerBasis false f).coeffs c.ops := by
    refine List.forall₂_iff_get.2 ⟨by show (c'.ops.map _).length = _; rw [List.length_map, hlen], fun i i1 i2 => ?_⟩
    have i1' : i < c'.ops.length := by rw [hlen]; exact i2
    obtain ⟨ω, ωi, hw⟩ := h.level.ops _ (List.getElem_mem i2)
    obtain ⟨ω', ωi', hw'⟩ := h'.level.ops _ (List.getElem_mem i1')
    obtain ⟨e1, e2⟩ := encRow_reduced hw' h'.level.degree (h'.dvd (List.getElem_mem i1')) .powerBasis f
    have e3 : (enc c' .powerBasis false f).coeffs.get ⟨i, i1⟩ = encRow .powerBasis f c'.ops[i] := by
      exact List.getElem_map (fun op => encRow .powerBasis f op)
    rw [e3]
    refine ⟨by rw [e1, hd], fun x hx => ?_⟩
    have e4 := e2 x hx
    have e5 := (Modulus.nbits_bounds hw.modulus).2.2
    have e6 : c'.ops[i].p.nbits = c.ops[i].p.nbits := by
      have := congrArg (fun l : List Nat => l[i]?) hbits
      simpa only [h.level.q, h'.level.q, List.map_map, List.getElem?_map, List.getElem?_eq_getElem i1', List.getElem?_eq_getElem i2, Option.map_some, Option.some.injEq, Function.comp] using this
    have e7 : c'.ops[i].p.p ≤ 2 ^ c'.ops[i].p.nbits := by
      rw [Modulus.nbits_eq hw'.modulus hw'.prime (h'.ne_two (by rw [h'.level.moduli]; exact List.mem_map.2 ⟨_, List.getElem_mem i1', rfl⟩))]
      exact (Nat.lt_log2_self).le
    rw [e6] at e7
    simp only [List.get_eq_getElem]
    omega
  have hraw : tryFromU64 (enc c' .powerBasis false f).toU64 c false = some (.ok { ctx := c, vt := false, coeffs := (enc c' .powerBasis false f).coeffs, shoup := none, hasLazy := false }) := by
    have hl2 : (enc c' .powerBasis false f).toU64.length = c.q.length * c.degree := by
      rw [toU64_length h', h'.level.moduli, List.length_map, hlen, h.level.q, List.length_map, hd]
    have hql : c.q.length = (enc c' .powerBasis false f).coeffs.length := by
      show _ = (c'.ops.map _).length
      rw [List.length_map, hlen, h.level.q, List.length_map]
    unfold tryFromU64
    rw [if_pos hl2, hql]
    unfold toU64
    rw [fromShapeVec_flatten _ (by rw [← hd]; exact hrows)]
    rfl
  obtain ⟨g, hg1, hg2⟩ := zipRows_fwd_lazy h hrow false
  have hread : fromBytes r m.encode c = (do return .ok (← ofPowerBasis r { ctx := c, vt := false, coeffs := (enc c' .powerBasis false f).coeffs, shoup := none, hasLazy := false })) := by
    unfold fromBytes fromRq
    rw [k3]
    simp only []
    rw [h7]
    simp only [Option.bind_eq_bind, Option.bind_some, ne_eq, not_true_eq_false, if_false]
    rw [hraw, Option.bind_some]
  refine ⟨m.encode, by unfold toBytes; rw [h1]; rfl, ?_, fun hne => ⟨g, ?_, fun vt' => ⟨f, g, represents_enc h' f, represents_enc h g, fun i hi' hi j hj => ?_⟩⟩⟩
  · rintro rfl
    rw [hread]
    rfl
  · rw [hread]
    cases r with
    | powerBasis => exact absurd rfl hne
    | ntt =>
      unfold ofPowerBasis intoNtt nttForward
      simp only [hg1, Option.bind_eq_bind, Option.bind_some]
      rfl
    | nttShoup =>
      unfold ofPowerBasis intoNttShoup nttForward
      simp only [hg1, Option.bind_eq_bind, Option.bind_some, Option.pure_def]
      rw [computeShoup_rows h g (r := .ntt) _ rfl rfl]
      rfl
  · have i1 : i < c'.ops.length := by rw [h'.level.moduli, List.length_map] at hi'; exact hi'
    have i2 : i < c.ops.length := by rw [h.level.moduli, List.length_map] at hi; exact hi
    have e := (List.forall₂_iff_get.1 hg2).2 i (by show i < (c'.ops.map _).length; rw [List.length_map]; exact i1) i2
    have e3 : ∀ hh, (enc c' .powerBasis false f).coeffs.get ⟨i, hh⟩ = encRow .powerBasis f c'.ops[i] := by
      intro hh
      exact List.getElem_map (fun op => encRow .powerBasis f op)
    rw [e3] at e
    have e4 := congrArg (fun l : List Nat => l[j]?) e
    simp only [encRow, pbRow, List.getElem?_map, List.get_eq_getElem] at e4
    rw [tab_get? _ hj, tab_get? _ (by rw [hd]; exact hj), Option.map_some, Option.some.injEq] at e4
    have m1 : c'.moduli[i] = c'.ops[i].p.p := by simp only [h'.level.moduli, List.getElem_map]
    have m2 : c.moduli[i] = c.ops[i].p.p := by simp only [h.level.moduli, List.getElem_map]
    rw [m1, m2, e4]

/-- Bytes of a polynomial of a ring whose moduli together have another number of bits are refused. -/
theorem fromBytes_bits (h : c.WF b n) (h' : c'.WF b n') (hn : n' ≤ 31) (hL : c'.moduli.length * (8 * c'.degree) ≤ 2 ^ 63) (hm : (c'.moduli.map Sizes.bits).sum ≠ (c.moduli.map Sizes.bits).sum) (f : c'.Elem) :
    ∃ bytes, (enc c' r vt f).toBytes = some bytes ∧ fromBytes r bytes c = some (.error (.serialization 3)) := by
  obtain ⟨m, h1, h2, h3, h4, h5, h6, h7⟩ := toRq_parse (r := r) (vt := vt) h' hn f
  have hdeg : m.degree < 2 ^ 32 := by
    rw [h3, h'.level.degree]; exact lt_of_le_of_lt (Nat.pow_le_pow_right (by norm_num) hn) (by norm_num)
  have hr : 0 ≤ m.representation ∧ m.representation < 4 := by rw [h2]; cases r <;> decide
  obtain ⟨k1, k2, k3⟩ := RqMsg.codec hr hdeg h5 (le_trans h6 hL)
  obtain ⟨d, hd⟩ : 8 ∣ m.degree := by rw [h3, h'.level.degree]; exact pow_dvd_pow 2 h'.level.three_le
  have hd0 : 0 < d := by
    rcases Nat.eq_zero_or_pos d with rfl | h0
    · rw [h3, h'.level.degree] at hd; have : 0 < 2 ^ n' := by positivity
      omega
    · exact h0
  have hl : ∀ {c : Context} {n : Nat}, c.WF b n → (c.q.mapM fun qi => qi.serializationLength m.degree) = some (c.moduli.map fun q => Sizes.bits q * d) := by
    intro c n h
    rw [show (c.moduli.map fun q => Sizes.bits q * d) = (c.moduli.map Sizes.bits).map (· * d) by rw [List.map_map]; rfl, ← map_nbits h, List.map_map]
    refine mapM_eq_some_map fun x _ => ?_
    unfold Modulus.serializationLength
    rw [check_eq (by rw [hd]; omega), hd, show x.nbits * (8 * d) = 8 * (x.nbits * d) by ring, Nat.mul_div_cancel_left _ (by norm_num)]
    rfl
  have hsum : ∀ l : List Nat, (l.map fun q => Sizes.bits q * d).sum = (l.map Sizes.bits).sum * d := by
    intro l
    induction l with
    | nil => simp
    | cons q l ih => simp only [List.map_cons, List.sum_cons, ih]; ring
  have hrep : (if m.representation = 1 then some Rep.powerBasis else if m.representation = 2 then some .ntt else if m.representation = 3 then some .nttShoup else none) = some r := by
    rw [h2]; cases r <;> rfl
  unfold parseProto at h7
  simp only [hrep, hl h', Option.bind_eq_bind, Option.bind_some, hsum] at h7
  rw [if_neg (by omega)] at h7
  have hlen : m.coefficients.length = (c'.moduli.map Sizes.bits).sum * d := by
    by_contra hne
    rw [if_pos hne] at h7
    cases h7
  refine ⟨m.encode, by unfold toBytes; rw [h1]; rfl, ?_⟩
  unfold fromBytes fromRq parseProto
  rw [k3]
  simp only [hrep, hl h, Option.bind_eq_bind, Option.bind_some, hsum]
  rw [if_neg (by omega), if_pos (by rw [hlen]; exact fun e => hm (Nat.eq_of_mul_eq_mul_right hd0 e))]
  rfl

end Poly

namespace Ciphertext
open ParamsBuilder Poly
variable {b : Build} {n n' : Nat} {par par' : Par} {g : Prg}

/-- Reading a ciphertext of a ring of the same degree and other moduli. -/
theorem fromBytes_moduli (hw : ParWF b n par.toBfvParameters) (hw' : ParWF b n' par'.toBfvParameters) (hg : g.OK) (hm : par'.moduli.length = par.moduli.length) (hd : par'.degree = par.degree)
    (h32 : par.moduli.length ≤ 2 ^ 32) {ct : Ciphertext} (h : ct.WellFormed g par') {l l' : ContextLevel} (ha : AtLevel b n par ct.level l) (ha' : AtLevel b n' par' ct.level l') :
    ∃ bytes, ct.toBytes = some bytes ∧
      (l'.ctx.moduli.map Sizes.bits = l.ctx.moduli.map Sizes.bits → ∃ c last, Ciphertext.fromBytes g bytes par = Res.ok { par, seed := ct.seed, c := c ++ last, level := ct.level } ∧
        List.Forall₂ (fun p q => Reread l'.ctx l.ctx p q ∧ q.vt = true) (if ct.seed = none then ct.c else ct.c.dropLast) c ∧
        (match ct.seed with | none => last = [] | some seed => ∃ p, g.poly .ntt l.ctx seed = some p ∧ last = [p.allowVt])) ∧
      ((l'.ctx.moduli.map Sizes.bits).sum ≠ (l.ctx.moduli.map Sizes.bits).sum → Ciphertext.fromBytes g bytes par = Res.err (.math (.serialization 3))) := by
  have hn : n' ≤ 31 := by have := hw'.le_16; omega
  have hpart : ∀ p ∈ ct.c, ∀ x, p.toBytes = some x →
      (l'.ctx.moduli.map Sizes.bits = l.ctx.moduli.map Sizes.bits → ∃ q, Poly.fromBytes .ntt x l.ctx = some (.ok q) ∧ Reread l'.ctx l.ctx p q.allowVt) ∧
      ((l'.ctx.moduli.map Sizes.bits).sum ≠ (l.ctx.moduli.map Sizes.bits).sum → Poly.fromBytes .ntt x l.ctx = some (.error (.serialization 3))) := by
    intro p hp x hx
    have hctx : p.ctx = l'.ctx := by
      have := (h.valid p hp).2
      rw [ha'.contextAt, Res.ok_inj] at this
      exact this.symm
    obtain ⟨f, hf, -⟩ := exists_encI ha'.wf ha'.deg hctx (h.valid p hp).1
    have hpe : p = enc l'.ctx .ntt p.vt (ofInt l'.ctx f) := hf
    have hfit := ha'.fits hw'.le_16 (by rw [hm]; exact h32)
    refine ⟨fun hb => ?_, fun hb => ?_⟩
    · obtain ⟨bytes, a1, -, a2⟩ := Poly.fromBytes_sizes (r := .ntt) (vt := p.vt) ha.wf ha'.wf hn hfit hb (by rw [ha.deg, ha'.deg]; exact hd) (ofInt l'.ctx f)
      rw [← hpe, hx, Option.some.injEq] at a1
      subst a1
      obtain ⟨g, a3, a4⟩ := a2 (by decide)
      refine ⟨_, a3, ?_⟩
      have := a4 true
      rw [← hpe] at this
      exact this
    · obtain ⟨bytes, a1, a2⟩ := Poly.fromBytes_bits (r := .ntt) (vt := p.vt) ha.wf ha'.wf hn hfit hb (ofInt l'.ctx f)
      rw [← hpe, hx, Option.some.injEq] at a1
      subst a1
      exact a2
  obtain ⟨bytes, e1, e2, e3⟩ := fromBytes_parts (R := Reread l'.ctx l.ctx) hw hw' hg hm h32 h ha
  exact ⟨bytes, e1, fun hb => e2 fun p hp x hx => (hpart p hp x hx).1 hb, fun hb => e3 _ fun p hp x hx => (hpart p hp x hx).2 hb⟩

end Ciphertext
end Fhe
