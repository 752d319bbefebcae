import Verif.Lemmas.RqSer
import Verif.Lemmas.BfvWire
import Verif.Lemmas.BfvSer
import Verif.Lemmas.MemoryValue
import Verif.Lemmas.Sizes
import Verif.Spec.OtherDegree
/-! Reading what was written for a ring of another degree. -/
namespace Fhe
open NttOperator Nega

theorem Modulus.deserializeVec_congr {m m' : Modulus} (h : m'.nbits = m.nbits) : m'.deserializeVec = m.deserializeVec := by
  funext bytes; unfold Modulus.deserializeVec; rw [h]

theorem Modulus.serializationLength_congr {m m' : Modulus} (h : m'.nbits = m.nbits) : m'.serializationLength = m.serializationLength := by
  funext d; unfold Modulus.serializationLength; rw [h]

namespace Poly
variable {b : Build} {c c' : Context} {n n' : Nat} {r : Rep} {vt vt' : Bool}

theorem parseRows_congr {N : Nat} {bytes : List Nat} : ∀ {q q' : List Modulus} (index : Nat), q'.map (·.nbits) = q.map (·.nbits) → parseRows N bytes q' index = parseRows N bytes q index
  | [], [], _, _ => rfl
  | [], _ :: _, _, h => by cases h
  | _ :: _, [], _, h => by cases h
  | m :: q, m' :: q', index, h => by
    simp only [List.map_cons, List.cons.injEq] at h
    simp only [parseRows, Modulus.serializationLength_congr h.1, Modulus.deserializeVec_congr h.1, parseRows_congr _ h.2]

theorem lens_congr {N : Nat} : ∀ {q q' : List Modulus}, q'.map (·.nbits) = q.map (·.nbits) → (q'.mapM fun m => m.serializationLength N) = q.mapM fun m => m.serializationLength N
  | [], [], _ => rfl
  | [], _ :: _, h => by cases h
  | _ :: _, [], h => by cases h
  | m :: q, m' :: q', h => by
    simp only [List.map_cons, List.cons.injEq] at h
    rw [List.mapM_cons, List.mapM_cons, Modulus.serializationLength_congr h.1, lens_congr h.2]

theorem parseProto_congr {m : RqMsg} (h : c'.q.map (·.nbits) = c.q.map (·.nbits)) : parseProto m c' = parseProto m c := by
  unfold parseProto
  simp only [lens_congr h, parseRows_congr _ h]

theorem map_q (h : c.WF b n) : c.q.map (·.p) = c.moduli := by rw [h.level.q, h.level.moduli, List.map_map]; rfl

theorem map_nbits (h : c.WF b n) : c.q.map (·.nbits) = c.moduli.map Sizes.bits := by
  rw [h.level.q, h.level.moduli, List.map_map, List.map_map]
  refine List.map_congr_left fun op hop => ?_
  obtain ⟨ω, ωi, hw⟩ := h.level.ops op hop
  exact Modulus.nbits_eq hw.modulus hw.prime (h.ne_two (by rw [h.level.moduli]; exact List.mem_map.2 ⟨op, hop, rfl⟩))

theorem toU64_length (h : c.WF b n) (f : c.Elem) : (enc c r vt f).toU64.length = c.moduli.length * c.degree := by
  obtain ⟨h1, h2⟩ := coeffs_shape (r := r) (vt := vt) h f
  unfold toU64
  rw [length_flatten_rows _ h2, h1, h.level.q, h.level.moduli, List.length_map, List.length_map]

/-- What is read from the bytes of a polynomial of a ring with the same moduli and another degree. -/
theorem fromBytes_other (h : c.WF b n) (h' : c'.WF b n') (hn : n' ≤ 31) (hL : c'.moduli.length * (8 * c'.degree) ≤ 2 ^ 63) (hm : c'.moduli = c.moduli) (hd : c'.degree ≠ c.degree) (f : c'.Elem) :
    ∃ bytes, (enc c' r vt f).toBytes = some bytes ∧ IsBytes bytes ∧ bytes.length ≤ c'.moduli.length * (8 * c'.degree) + 80 ∧
      (c.moduli.length * c'.degree ≤ c.degree → fromBytes r bytes c = some (.ok (enc c r false (ofNats c (enc c' .powerBasis false f).toU64)))) ∧
      (c.degree < c.moduli.length * c'.degree → fromBytes r bytes c = some (.error (.invalidCoefficientCount (c.moduli.length * c'.degree) c.degree c.moduli.length))) := by
  obtain ⟨m, h1, h2, h3, h4, h5, h6, h7⟩ := toRq_parse (r := r) (vt := vt) h' hn f
  have hdeg : m.degree < 2 ^ 32 := by
    rw [h3, h'.level.degree]; exact lt_of_le_of_lt (Nat.pow_le_pow_right (by norm_num) hn) (by norm_num)
  have hr : 0 ≤ m.representation ∧ m.representation < 4 := by rw [h2]; cases r <;> decide
  obtain ⟨k1, k2, k3⟩ := RqMsg.codec hr hdeg h5 (le_trans h6 hL)
  have hlen := toU64_length (r := .powerBasis) (vt := false) h' f
  rw [hm] at hlen
  have hne : (enc c' .powerBasis false f).toU64.length ≠ c.moduli.length * c.degree := by
    rw [hlen]
    intro he
    rcases Nat.eq_zero_or_pos c.moduli.length with h0 | h0
    · rw [h.level.moduli, List.length_map] at h0
      exact absurd (List.length_eq_zero_iff.1 h0) h.level.ne_nil
    · exact hd (Nat.eq_of_mul_eq_mul_left h0 he)
  rw [parseProto_congr (c := c) (by rw [map_nbits h, map_nbits h', hm])] at h7
  refine ⟨m.encode, by unfold toBytes; rw [h1]; rfl, k1, by omega, fun hle => ?_, fun hlt => ?_⟩
  · unfold fromBytes fromRq
    rw [k3]
    simp only []
    rw [h7]
    simp only [Option.bind_eq_bind, Option.bind_some, ne_eq, not_true_eq_false, if_false]
    rw [tryFromU64_short h (by rw [hlen]; exact hle) hne fun x hx => ?_, Option.bind_some]
    · simp only
      rw [ofPowerBasis_enc h]
      rfl
    · unfold toU64 at hx
      obtain ⟨row, hrow, hx⟩ := List.mem_flatten.1 hx
      obtain ⟨op, hop, rfl⟩ := List.mem_map.1 hrow
      obtain ⟨ω, ωi, hw⟩ := h'.level.ops op hop
      have := h'.neZero
      have := (encRow_reduced hw h'.level.degree (h'.dvd hop) .powerBasis f).2 x hx
      have := hw.modulus.lt
      omega
  · unfold fromBytes fromRq
    rw [k3]
    simp only []
    rw [h7]
    simp only [Option.bind_eq_bind, Option.bind_some, ne_eq, not_true_eq_false, if_false]
    rw [tryFromU64_long h (by rw [hlen]; omega) hne, Option.bind_some, hlen]
    rfl

theorem spread_enc (h : c.WF b n) (h' : c'.WF b n') (hm : c'.moduli = c.moduli) (hle : c.moduli.length * c'.degree ≤ c.degree) (f : c'.Elem) :
    Spread c' c (enc c' r vt f) (enc c r vt' (ofNats c (enc c' .powerBasis false f).toU64)) := by
  obtain ⟨hrl, hrows⟩ := coeffs_shape (r := .powerBasis) (vt := false) h' f
  refine ⟨f, _, represents_enc h' f, represents_enc h _, fun i hi j hj => ?_, fun m hm1 hm2 => ?_⟩
  · have hlt : i * c'.degree + j < c.degree := by
      have : (i + 1) * c'.degree ≤ c.moduli.length * c'.degree := Nat.mul_le_mul_right _ (by rw [← hm]; exact hi)
      rw [Nat.add_mul] at this
      omega
    unfold ofNats
    rw [coeff_of_lt _ hlt]
    simp only [Nega.ofFn]
    rw [List.getD_eq_getElem?_getD]
    unfold toU64
    rw [Memory.flatten_get _ hrows i j hj]
    have hmod := h'.level.moduli
    have hi' : i < c'.ops.length := by rw [hmod, List.length_map] at hi; exact hi
    rw [show (enc c' .powerBasis false f).coeffs = c'.ops.map fun op => encRow .powerBasis f op from rfl, List.getElem?_map, List.getElem?_eq_getElem hi', Option.map_some, Option.bind_some]
    simp only [encRow, pbRow]
    rw [tab_get? _ hj, Option.getD_some]
    congr 3
    simp only [hmod, List.getElem_map]
  · unfold ofNats
    rw [coeff_of_lt _ hm2]
    simp only [Nega.ofFn]
    rw [List.getD_eq_getElem?_getD, List.getElem?_eq_none, Option.getD_none, Nat.cast_zero]
    rw [toU64_length h']
    exact hm1

end Poly

namespace Ciphertext
open ParamsBuilder Poly
variable {b : Build} {n n' : Nat} {par par' : Par} {g : Prg}

/-- The message of a ciphertext: the bytes of its parts, the last one left out if there is a seed. -/
theorem toMsg_inv {ct : Ciphertext} {msg : CiphertextMsg} (h : ct.toMsg = some msg) (h2 : 2 ≤ ct.c.length) (hl : ct.level < 2 ^ 32) :
    msg.level = ct.level ∧ msg.seed = ct.seed.getD [] ∧ List.Forall₂ (fun p x => p.toBytes = some x) (if ct.seed = none then ct.c else ct.c.dropLast) msg.c := by
  have hne : ct.c ≠ [] := by rintro h; rw [h] at h2; simp at h2
  have hlast := List.getLast?_eq_some_getLast hne
  unfold toMsg at h
  rw [hlast] at h
  simp only [Option.bind_eq_bind, Option.bind_eq_some_iff] at h
  obtain ⟨rest, h3, h4⟩ := h
  have hrest : List.Forall₂ (fun (p : Poly .ntt) x => p.toBytes = some x) ct.c.dropLast rest := by
    clear h4
    generalize ct.c.dropLast = l at h3
    induction l generalizing rest with
    | nil => cases h3; exact .nil
    | cons p l ih =>
      rw [List.mapM_cons] at h3
      simp only [Option.bind_eq_bind, Option.bind_eq_some_iff, Option.pure_def, Option.some.injEq] at h3
      obtain ⟨x, h5, xs, h6, rfl⟩ := h3
      exact .cons h5 (ih xs h6)
  cases hs : ct.seed with
  | some seed =>
    rw [hs] at h4
    simp only [Option.pure_def, Option.some.injEq] at h4
    subst h4
    exact ⟨Nat.mod_eq_of_lt hl, rfl, by simpa using hrest⟩
  | none =>
    rw [hs] at h4
    simp only [Option.bind_eq_some_iff, Option.pure_def, Option.some.injEq] at h4
    obtain ⟨x, h5, rfl⟩ := h4
    refine ⟨Nat.mod_eq_of_lt hl, rfl, ?_⟩
    rw [if_pos rfl]
    conv => arg 2; rw [← List.dropLast_append_getLast hne]
    exact List.rel_append hrest (.cons h5 .nil)

/-- Reading a ciphertext that was written with other parameters with as many moduli, if something is known on reading each of its parts. -/
theorem fromBytes_parts (hw : ParWF b n par.toBfvParameters) (hw' : ParWF b n' par'.toBfvParameters) (hg : g.OK) (hm : par'.moduli.length = par.moduli.length)
    (h32 : par.moduli.length ≤ 2 ^ 32) {ct : Ciphertext} (h : ct.WellFormed g par') {l : ContextLevel} (ha : AtLevel b n par ct.level l) {R : Poly .ntt → Poly .ntt → Prop} :
    ∃ bytes, ct.toBytes = some bytes ∧
      ((∀ p ∈ ct.c, ∀ x, p.toBytes = some x → ∃ q, Poly.fromBytes .ntt x l.ctx = some (.ok q) ∧ R p q.allowVt) →
        ∃ c last, Ciphertext.fromBytes g bytes par = Res.ok { par, seed := ct.seed, c := c ++ last, level := ct.level } ∧
        List.Forall₂ (fun p q => R p q ∧ q.vt = true) (if ct.seed = none then ct.c else ct.c.dropLast) c ∧
        (match ct.seed with | none => last = [] | some seed => ∃ p, g.poly .ntt l.ctx seed = some p ∧ last = [p.allowVt])) ∧
      ∀ e, (∀ p ∈ ct.c, ∀ x, p.toBytes = some x → Poly.fromBytes .ntt x l.ctx = some (.error e)) → Ciphertext.fromBytes g bytes par = Res.err (.math e) := by
  have hlev : ct.level < 2 ^ 32 := by have := ha.lt; omega
  obtain ⟨msg, e1, -, e3, -, -, -⟩ := Ciphertext.roundtrip_eq hw' h (by rw [hm]; exact h32)
  obtain ⟨f1, f2, f3⟩ := toMsg_inv e1 h.parts hlev
  have hmax : par.maxLevel = some (par.moduli.length - 1) := by
    unfold BfvParameters.maxLevel
    have := ha.lt
    rw [hw.length, subU_eq (by omega)]
  have hsub : ∀ p ∈ (if ct.seed = none then ct.c else ct.c.dropLast), p ∈ ct.c := by
    intro p hp
    split at hp
    · exact hp
    · exact List.dropLast_subset _ hp
  have hc1 : 1 ≤ msg.c.length := by
    rw [← f3.length_eq]
    have := h.parts
    split
    · omega
    · rw [List.length_dropLast]; omega
  have hguard : ¬ (msg.c = [] ∨ (msg.c.length = 1 ∧ msg.seed = [])) := by
    rintro (h0 | ⟨h0, h1⟩)
    · rw [h0] at hc1; simp at hc1
    · rw [← f3.length_eq] at h0
      cases hs : ct.seed with
      | none => rw [hs, if_pos rfl] at h0; have := h.parts; omega
      | some seed =>
        rw [f2, hs] at h1
        have := (h.seed seed hs).1
        simp only [Option.getD_some] at h1
        rw [h1] at this
        simp at this
  have hdec : CiphertextMsg.decode msg.encode = some msg := by
    unfold CiphertextMsg.decode
    exact CiphertextMsg.codec e3 (partSize_lt' hw' (by rw [hm]; exact h32)) _
  refine ⟨msg.encode, by unfold Ciphertext.toBytes; rw [e1]; rfl, fun hpart => ?_, fun e hpart => ?_⟩
  · obtain ⟨qs, k1, k2⟩ : ∃ qs, (msg.c.mapM fun x => math (Poly.fromBytes .ntt x l.ctx)) = Res.ok qs ∧
        List.Forall₂ (fun p q => R p q ∧ q.vt = true) (if ct.seed = none then ct.c else ct.c.dropLast) (qs.map Poly.allowVt) := by
      clear hguard hc1 e1 e3 hdec f1 f2
      generalize (if ct.seed = none then ct.c else ct.c.dropLast) = ps at f3 hsub
      generalize msg.c = xs at f3
      induction f3 with
      | nil => exact ⟨[], rfl, .nil⟩
      | @cons p x ps xs hx _ ih =>
        obtain ⟨q, k1, k2⟩ := hpart p (hsub p (by simp)) x hx
        obtain ⟨qs, k3, k4⟩ := ih fun p' hp' => hsub p' (by simp [hp'])
        exact ⟨q :: qs, by rw [List.mapM_cons, k1, Res.math_ok, Res.ok_bind, k3, Res.ok_bind, Res.pure_eq], .cons ⟨k2, rfl⟩ k4⟩
    unfold Ciphertext.fromBytes
    rw [hdec]
    simp only []
    unfold fromMsg
    rw [if_neg hguard, hmax, Res.lift_some, Res.ok_bind, if_neg (by have := ha.lt; rw [f1]; omega), f1, ha.contextAt, Res.ok_bind, k1, Res.ok_bind, f2]
    cases hs : ct.seed with
    | none =>
      rw [hs] at k2
      refine ⟨qs.map Poly.allowVt, [], ?_, k2, rfl⟩
      rw [Option.getD_none, if_pos rfl, Res.pure_eq, List.append_nil]
    | some seed =>
      rw [hs] at k2
      have hse := (h.seed seed hs).1
      obtain ⟨p, hp, -⟩ := Prg.poly_valid hg ha.wf .ntt seed
      refine ⟨qs.map Poly.allowVt, [p.allowVt], ?_, k2, p, hp, rfl⟩
      rw [Option.getD_some, if_neg (by rintro rfl; simp at hse), if_neg (by omega), hp, Res.lift_some, Res.ok_bind, Res.pure_eq, List.map_append]
      rfl
  · obtain ⟨x, xs, hxs⟩ : ∃ x xs, msg.c = x :: xs := by
      cases hc : msg.c with
      | nil => rw [hc] at hc1; simp at hc1
      | cons x xs => exact ⟨x, xs, rfl⟩
    rw [hxs] at f3
    obtain ⟨p, ps, hps, hx⟩ : ∃ p ps, (if ct.seed = none then ct.c else ct.c.dropLast) = p :: ps ∧ p.toBytes = some x := by
      generalize (if ct.seed = none then ct.c else ct.c.dropLast) = ps at f3
      cases f3 with
      | cons h1 _ => exact ⟨_, _, rfl, h1⟩
    have hp := hpart p (hsub p (by rw [hps]; simp)) x hx
    unfold Ciphertext.fromBytes
    rw [hdec]
    simp only []
    unfold fromMsg
    rw [if_neg hguard, hmax, Res.lift_some, Res.ok_bind, if_neg (by have := ha.lt; rw [f1]; omega), f1, ha.contextAt, Res.ok_bind, hxs, List.mapM_cons, hp, Res.math_err, Res.err_bind, Res.err_bind]

/-- Reading a ciphertext of a ring with the same moduli and another degree. -/
theorem fromBytes_other (hw : ParWF b n par.toBfvParameters) (hw' : ParWF b n' par'.toBfvParameters) (hg : g.OK) (hm : par'.moduli = par.moduli) (hd : par'.degree ≠ par.degree)
    (h32 : par.moduli.length ≤ 2 ^ 32) {ct : Ciphertext} (h : ct.WellFormed g par') {l l' : ContextLevel} (ha : AtLevel b n par ct.level l) (ha' : AtLevel b n' par' ct.level l') :
    ∃ bytes, ct.toBytes = some bytes ∧
      ((par.moduli.length - ct.level) * par'.degree ≤ par.degree → ∃ c last, Ciphertext.fromBytes g bytes par = Res.ok { par, seed := ct.seed, c := c ++ last, level := ct.level } ∧
        List.Forall₂ (fun p q => Spread l'.ctx l.ctx p q ∧ q.vt = true) (if ct.seed = none then ct.c else ct.c.dropLast) c ∧
        (match ct.seed with | none => last = [] | some seed => ∃ p, g.poly .ntt l.ctx seed = some p ∧ last = [p.allowVt])) ∧
      (par.degree < (par.moduli.length - ct.level) * par'.degree →
        Ciphertext.fromBytes g bytes par = Res.err (.math (.invalidCoefficientCount ((par.moduli.length - ct.level) * par'.degree) par.degree (par.moduli.length - ct.level)))) := by
  have hn : n' ≤ 31 := by have := hw'.le_16; omega
  have hlm : l'.ctx.moduli = l.ctx.moduli := by rw [ha.moduli, ha'.moduli, hm]
  have hlen : l.ctx.moduli.length = par.moduli.length - ct.level := by rw [ha.moduli, List.length_take]; omega
  have hpart : ∀ p ∈ ct.c, ∀ x, p.toBytes = some x →
      (l.ctx.moduli.length * l'.ctx.degree ≤ l.ctx.degree → ∃ q, Poly.fromBytes .ntt x l.ctx = some (.ok q) ∧ Spread l'.ctx l.ctx p q.allowVt) ∧
      (l.ctx.degree < l.ctx.moduli.length * l'.ctx.degree → Poly.fromBytes .ntt x l.ctx = some (.error (.invalidCoefficientCount (l.ctx.moduli.length * l'.ctx.degree) l.ctx.degree l.ctx.moduli.length))) := by
    intro p hp x hx
    have hctx : p.ctx = l'.ctx := by
      have := (h.valid p hp).2
      rw [ha'.contextAt, Res.ok_inj] at this
      exact this.symm
    obtain ⟨f, hf, -⟩ := exists_encI ha'.wf ha'.deg hctx (h.valid p hp).1
    obtain ⟨bytes, a1, -, -, a2, a3⟩ := Poly.fromBytes_other (r := .ntt) (vt := p.vt) ha.wf ha'.wf hn (ha'.fits hw'.le_16 (by rw [hm]; exact h32)) hlm (by rw [ha.deg, ha'.deg]; exact hd) (ofInt l'.ctx f)
    have hpe : p = enc l'.ctx .ntt p.vt (ofInt l'.ctx f) := hf
    rw [← hpe, hx, Option.some.injEq] at a1
    subst a1
    refine ⟨fun hle => ⟨_, a2 hle, ?_⟩, a3⟩
    rw [hpe]
    exact spread_enc (vt' := true) ha.wf ha'.wf hlm hle _
  have hdeg : l.ctx.moduli.length * l'.ctx.degree = (par.moduli.length - ct.level) * par'.degree ∧ l.ctx.degree = par.degree := ⟨by rw [hlen, ha'.deg], ha.deg⟩
  obtain ⟨bytes, e1, e2, e3⟩ := fromBytes_parts (R := Spread l'.ctx l.ctx) hw hw' hg (by rw [hm]) h32 h ha
  refine ⟨bytes, e1, fun hle => e2 fun p hp x hx => (hpart p hp x hx).1 (by rw [hdeg.1, hdeg.2]; exact hle), fun hlt => ?_⟩
  rw [← hdeg.1, ← hdeg.2, ← hlen]
  exact e3 _ fun p hp x hx => (hpart p hp x hx).2 (by rw [hdeg.1, hdeg.2]; exact hlt)

end Ciphertext
end Fhe
