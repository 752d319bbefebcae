import Verif.Model.Voting
import Verif.Props.Mbfv
import Verif.Props.Defaults
/-!
# Property C61: the voting example
-/
namespace Fhe.Props
open Nega Poly ParamsBuilder Ciphertext

variable {b : Build} {par : Par} {st : ParamsBuilder}

theorem mapM_range_ofFn {β : Type} {K : Nat} {F : Nat → Res β} {g : Fin K → β} (h : ∀ k : Fin K, F k = Res.ok (g k)) : (List.range K).mapM F = Res.ok (List.ofFn g) := by
  rw [Res.mapM_eq_ok, List.forall₂_iff_get]
  refine ⟨by simp, fun i h1 h2 => ?_⟩
  simp only [List.length_range] at h1
  simpa using h ⟨i, h1⟩

theorem mapM_zipIdx_ofFn {α β : Type} {K : Nat} {F : α × Nat → Res β} {f : Fin K → α} {g : Fin K → β} (h : ∀ k : Fin K, F (f k, k) = Res.ok (g k)) :
    (List.ofFn f).zipIdx.mapM F = Res.ok (List.ofFn g) := by
  rw [Res.mapM_eq_ok, List.forall₂_iff_get]
  refine ⟨by simp, fun i h1 h2 => ?_⟩
  simp only [List.length_zipIdx, List.length_ofFn] at h1
  simpa using h ⟨i, h1⟩

/-- The sum of any number of ciphertexts of two parts. -/
theorem sum_encrypts (hb : b.OK) (h : build b st = Res.ok par.toBfvParameters) {s : IntPoly par.degree} {i B : Nat} :
    ∀ (l : List (Ciphertext × par.Msg)) (acc : Ciphertext) (m : par.Msg) (v : IntPoly par.degree) (V : Nat), acc.Encrypts par s i m v → acc.c.length = 2 → v.Bounded V →
      (∀ p ∈ l, ∃ w, p.1.Encrypts par s i p.2 w ∧ p.1.c.length = 2 ∧ w.Bounded B) →
      ∃ r w, (l.map (·.1)).foldlM Ciphertext.add acc = some r ∧ r.Encrypts par s i (m + (l.map (·.2)).sum) w ∧ r.c.length = 2 ∧ w.Bounded (V + l.length * B)
  | [], acc, m, v, V, h1, h2, h3, _ => ⟨acc, v, rfl, by simpa using h1, h2, by simpa using h3⟩
  | p :: l, acc, m, v, V, h1, h2, h3, hl => by
    obtain ⟨w, e1, e2, e3⟩ := hl p (by simp)
    obtain ⟨r, g1, g2, g3, -⟩ := C38_add hb h h1 e1 (by rw [h2, e2])
    obtain ⟨r', w', k1, k2, k3, k4⟩ := sum_encrypts hb h l r _ _ (V + B) g2 (by rw [g3, h2]) (h3.add e3) fun q hq => hl q (by simp [hq])
    refine ⟨r', w', ?_, ?_, k3, k4.mono ?_⟩
    · rw [List.map_cons, List.foldlM_cons, g1]; exact k1
    · rw [List.map_cons, List.sum_cons, ← _root_.add_assoc]; exact k2
    · rw [List.length_cons, Nat.succ_mul]; omega

/-- The noise of a vote. -/
def voteNoise (t N B K S : Nat) : Nat := t * (N * B * (K * B + 1 + N * (K * S)) + (B + N * (K * S) * B) + 1)

/-- C61: for any parameters, any number of parties and of votes below the plaintext modulus, and whatever the generator returns, the program
reports the sum of the votes if that is below the plaintext modulus, if the noise of the sum of the encrypted votes and of the decryption
leaves room; a larger sum wraps around, so the final assertion of the program fails. -/
theorem C61_voting (hb : b.OK) {par0 : BfvParameters} (h : build b st = Res.ok par0) (addr : Nat) {K : Nat} (hK : 0 < K) {votes : List Nat} (hne : votes ≠ []) (hvotes : ∀ x ∈ votes, x < par0.plaintext.value)
    (h64 : par0.plaintext.value < 2 ^ 64) (hcount : par0.moduli.length ≤ 31) (hsum : par0.moduli.sum ≤ 2 ^ 65) (hQ : 2 * par0.plaintext.value ≤ par0.modulusAt 0)
    (hroom : 2 ^ 62 * (votes.length * voteNoise par0.plaintext.value par0.degree (2 * par0.variance) K (2 * par0.variance) + par0.plaintext.value * (K * (2 * par0.variance))) ≤ (2 ^ 61 - 1) * par0.modulusAt 0)
    {r : VotingRandom} (hcrp : r.crp.length = par0.moduli.length ∧ ∀ (j q : Nat) (row : List Nat), par0.moduli[j]? = some q → r.crp[j]? = some row → row.length = par0.degree ∧ ∀ x ∈ row, x < q)
    (hr : ∀ k, IsStream (r.secret k) ∧ IsStream (r.share k) ∧ IsStream (r.decrypt k) ∧ IsStream (r.voteU k) ∧ IsStream (r.vote1 k) ∧ IsStream (r.vote2 k)) :
    voting b st addr K votes r = if votes.sum < par0.plaintext.value then Res.ok votes.sum else Res.panic := by
  obtain ⟨par, hpar0, hadd⟩ : ∃ par : Par, par.toBfvParameters = par0 ∧ par.addr = addr := ⟨⟨par0, addr⟩, rfl, rfl⟩
  subst hpar0
  obtain ⟨n, hw, -⟩ := build_inv hb h
  have ht := hw.t_pos
  have hpos : 0 < par.degree := by rw [hw.degree]; positivity
  have hlen : 0 < par.moduli.length := List.length_pos_of_ne_nil hw.ne_nil
  have : NeZero par.plaintext.value := ⟨by omega⟩
  obtain ⟨ctx, hctx, hnew, -⟩ := (C31_levels hb h 0).1 hlen
  obtain ⟨n', hn', hwf, hmod⟩ := Context.new_inv hb hnew
  rw [Nat.sub_zero, List.take_length] at hmod
  have hdeg : ctx.degree = par.degree := by rw [hwf.level.degree, ← hn']
  obtain ⟨crp, c1, c2, c3, -⟩ := C51_crp hb h hctx (rows := r.crp) (by rw [hmod]; exact hcrp.1) (by rw [hmod, hdeg]; exact hcrp.2)
  choose sk s a1 a2 a3 using fun k : Fin K => C37_secret_key (par := par) hb h (hr k).1
  obtain ⟨share, pk, e, p1, p2, p3, p4, p5, p6, -, -⟩ := C51_public_key hb h hK a2 (by rw [c2]; exact hctx) c3 (rng := fun k => r.share k) fun k => (hr k).2.1
  have p5' := p5.C_mul (par.plaintext.value : Int)
  rw [Int.natAbs_natCast] at p5'
  -- the votes
  have hvote : ∀ k : Fin votes.length, ∃ (ct : Ciphertext) (m : par.Msg) (w : IntPoly par.degree), (∀ j, coeff m j = (([votes[k]] : List Nat).getD j 0 : ZMod par.plaintext.value)) ∧
      (do let pt ← Plaintext.tryEncodeU64 [votes[k]] ⟨.poly, 0⟩ par false; pk.tryEncrypt pt (r.voteU k) (r.vote1 k) (r.vote2 k)) = Res.ok ct ∧
      ct.Encrypts par (∑ k, s k) 0 m w ∧ ct.c.length = 2 ∧ w.Bounded (voteNoise par.plaintext.value par.degree (2 * par.variance) K (2 * par.variance)) := by
    intro k
    have hv := hvotes _ (List.getElem_mem k.isLt)
    obtain ⟨m, g1, -, -, g2⟩ := C35_poly hb h (level := 0) hlen (by omega) (v := [votes[k]]) (by simp; omega) (by simpa using hv)
    obtain ⟨pt, g3, g4, -⟩ := g2 (by simp; omega) false
    obtain ⟨ct, w, f1, f2, f3, -, f5⟩ := C37_public_encrypt hb h p3 p4 p6 (IntPoly.Bounded.sum_fin a3) (V := par.plaintext.value * (K * (2 * par.variance) + 1 + par.degree * (K * (2 * par.variance))))
      (p5'.mono (Nat.mul_le_mul_left _ (by omega))) (Nat.mul_le_mul_left _ (by omega)) (by omega) g4 (hr k).2.2.2.1 (hr k).2.2.2.2.1 (hr k).2.2.2.2.2
    refine ⟨ct, m, w, g1, by rw [g3, Res.ok_bind, f1], f2, f3, f5.mono (le_of_eq ?_)⟩
    unfold voteNoise; ring
  choose ct m w q1 q2 q3 q4 q5 using hvote
  have hcts : (votes.zipIdx.mapM fun p => do let pt ← Plaintext.tryEncodeU64 [p.1] ⟨.poly, 0⟩ par false; pk.tryEncrypt pt (r.voteU p.2) (r.vote1 p.2) (r.vote2 p.2)) = Res.ok (List.ofFn ct) := by
    conv_lhs => rw [← List.ofFn_get votes]
    exact mapM_zipIdx_ofFn q2
  obtain ⟨T, vT, t1, t2, t3, t4⟩ : ∃ T vT, (List.ofFn ct).foldlM Ciphertext.add (Ciphertext.zero par) = some T ∧ T.Encrypts par (∑ k, s k) 0 (List.ofFn m).sum vT ∧ T.c.length = 2 ∧
      vT.Bounded (votes.length * voteNoise par.plaintext.value par.degree (2 * par.variance) K (2 * par.variance)) := by
    have hl : ∀ p ∈ List.ofFn (fun k => (ct k, m k)), ∃ w, p.1.Encrypts par (∑ k, s k) 0 p.2 w ∧ p.1.c.length = 2 ∧ w.Bounded (voteNoise par.plaintext.value par.degree (2 * par.variance) K (2 * par.variance)) := by
      intro p hp
      obtain ⟨k, rfl⟩ := (List.mem_ofFn' _ _).1 hp
      exact ⟨w k, q3 k, q4 k, q5 k⟩
    have hc : List.ofFn ct = (List.ofFn (fun k => (ct k, m k))).map (·.1) := by rw [List.map_ofFn]; rfl
    have hm : List.ofFn m = (List.ofFn (fun k => (ct k, m k))).map (·.2) := by rw [List.map_ofFn]; rfl
    have hn : (List.ofFn (fun k => (ct k, m k))).length = votes.length := by simp
    rw [hc, hm]
    generalize List.ofFn (fun k => (ct k, m k)) = L at hl hn
    clear hc hm
    cases L with
    | nil => exact absurd (List.length_eq_zero_iff.1 hn.symm) hne
    | cons p L =>
      obtain ⟨w0, e1, e2, e3⟩ := hl p (by simp)
      obtain ⟨r', w', k1, k2, k3, k4⟩ := sum_encrypts hb h L p.1 _ _ _ e1 e2 e3 fun q hq => hl q (by simp [hq])
      refine ⟨r', w', ?_, ?_, k3, k4.mono ?_⟩
      · have hz : (Ciphertext.zero par).add p.1 = some p.1 := by simp [Ciphertext.zero, Ciphertext.add, e1.par_eq, ptrEq_self, check]
        rw [List.map_cons, List.foldlM_cons, hz]; exact k1
      · rw [List.map_cons, List.sum_cons]; exact k2
      · rw [← hn, List.length_cons]; exact le_of_eq (by ring)
  obtain ⟨sh, pt, d1, d2, d3, d4⟩ := C53_decrypt hb h hcount hsum hQ hK a2 t2 t3 t4 hroom (rng := fun k => r.decrypt k) fun k => (hr k).2.2.1
  have hdec := (C35_decode hb h d3 (Or.inl d4) (lv := 0)).2
  rw [if_pos fun x hx => lt_trans (msgCoeffs_lt _ x hx) h64] at hdec
  have p2' : PublicKeyShare.aggregate (List.ofFn share) = Res.ok pk := p2 1
  have d2' := d2 1
  simp only [Equiv.Perm.one_apply] at d2'
  unfold voting
  rw [h, Res.ok_bind, ← hadd]
  simp only []
  change (CommonRandomPoly.newLeveled par 0 r.crp >>= _) = _
  rw [c1, Res.ok_bind, mapM_range_ofFn (g := sk) (fun k => by rw [a1 k, Res.lift_some]), Res.ok_bind, mapM_zipIdx_ofFn p1, Res.ok_bind, p2', Res.ok_bind, hcts, Res.ok_bind, t1, Res.lift_some, Res.ok_bind,
    mapM_zipIdx_ofFn d1, Res.ok_bind, d2', Res.ok_bind, hdec, Res.ok_bind]
  have hsumc : coeff (List.ofFn m).sum 0 = ((votes.sum : Nat) : ZMod par.plaintext.value) := by
    rw [List.sum_ofFn]
    have : ∀ f : par.Msg, coeff f 0 = f ⟨0, hpos⟩ := fun f => coeff_of_lt f hpos
    rw [this, Nega.sum_apply]
    have e : ∀ k, (m k) ⟨0, hpos⟩ = ((votes.get k : Nat) : ZMod par.plaintext.value) := fun k => by rw [← this (m k), q1 k]; simp
    rw [Finset.sum_congr rfl fun k _ => e k, ← Nat.cast_sum, ← List.sum_ofFn, List.ofFn_get]
  have hget : (msgCoeffs (List.ofFn m).sum)[0]? = some (votes.sum % par.plaintext.value) := by
    rw [List.getElem?_eq_getElem (by rw [length_msgCoeffs]; exact hpos)]
    simp only [msgCoeffs, List.getElem_ofFn]
    rw [coeff_of_lt _ hpos] at hsumc
    rw [hsumc, ZMod.val_natCast]
  rw [hget, Res.lift_some, Res.ok_bind]
  by_cases hlt : votes.sum < par.plaintext.value
  · rw [if_pos hlt, Nat.mod_eq_of_lt hlt, check_eq rfl, Res.lift_some, Res.ok_bind]; rfl
  · rw [if_neg hlt]
    have : ¬ votes.sum % par.plaintext.value = votes.sum := fun h => hlt (h ▸ Nat.mod_lt _ (by omega))
    simp only [check, this, if_false, Res.lift_none, Res.panic_bind]

/-- The parameters of the program are accepted. -/
theorem votingParams_build (hb : b.OK) (hl : b.Lucky) : ∃ par, build b votingParams = Res.ok par := by
  have hmem : ((4096, [0xffffee001, 0xffffc4001, 0x1ffffe0001]) : Nat × List Nat) ∈ defaultTable := by decide
  obtain ⟨hnd, hpr⟩ := C31_table.2 _ hmem
  refine C31_complete hb hl rfl ⟨⟨12, by decide, by decide, by decide⟩, by decide, Or.inl ⟨by decide, by decide⟩, hnd, by decide, fun q hq => (hpr q hq).1, by decide, by decide, by decide⟩ (by decide)
    (fun l hl => exists_bigPrime hmem l hl)

/-- C61: the program reports the number of votes for, for every set of fewer than 4096 votes for among any number of votes, as long as
the number of votes times the number of parties is at most `2 ^ 60`; with 4096 or more votes for, it stops with a failed assertion. -/
theorem C61_voting_program (hb : b.OK) (hl : b.Lucky) (addr : Nat) {K : Nat} (hK : 0 < K) {votes : List Nat} (hne : votes ≠ []) (hvotes : ∀ x ∈ votes, x ≤ 1) (hn : votes.length * K ≤ 2 ^ 60)
    {r : VotingRandom} (hcrp : List.Forall₂ (fun q row => row.length = 4096 ∧ ∀ x ∈ row, x < q) [0xffffee001, 0xffffc4001, 0x1ffffe0001] r.crp)
    (hr : ∀ k, IsStream (r.secret k) ∧ IsStream (r.share k) ∧ IsStream (r.decrypt k) ∧ IsStream (r.voteU k) ∧ IsStream (r.vote1 k) ∧ IsStream (r.vote2 k)) :
    voting b votingParams addr K votes r = if votes.sum < 4096 then Res.ok votes.sum else Res.panic := by
  obtain ⟨par, h⟩ := votingParams_build hb hl
  obtain ⟨-, e1, e2, e3, e4⟩ := C31_sound hb h
  replace e4 : par.moduli = [0xffffee001, 0xffffc4001, 0x1ffffe0001] := (e4.resolve_right fun h => by simp [votingParams, setModuli] at h).2
  replace e1 : par.degree = 4096 := e1
  replace e2 : par.variance = 10 := e2
  replace e3 : par.plaintext.value = 4096 := e3
  have hQ : par.modulusAt 0 = 0xffffee001 * 0xffffc4001 * 0x1ffffe0001 := by unfold BfvParameters.modulusAt; rw [e4]; decide
  have := C61_voting hb h addr hK hne (fun x hx => by have := hvotes x hx; omega) (by omega) (by rw [e4]; decide) (by rw [e4]; decide) (by rw [hQ, e3]; decide) ?_ (r := r) ?_ hr
  · rwa [e3] at this
  · rw [hQ, e1, e2, e3]
    unfold voteNoise
    have h1 : 1 ≤ votes.length := List.length_pos_of_ne_nil hne
    have h2 : votes.length ≤ votes.length * K := Nat.le_mul_of_pos_right _ hK
    have h3 : K ≤ votes.length * K := Nat.le_mul_of_pos_left _ h1
    have : votes.length * (4096 * (4096 * (2 * 10) * (K * (2 * 10) + 1 + 4096 * (K * (2 * 10))) + (2 * 10 + 4096 * (K * (2 * 10)) * (2 * 10)) + 1)) =
      (4096 * (4096 * 20 * 20 + 4096 * 20 * 4096 * 20 + 4096 * 20 * 20)) * (votes.length * K) + 4096 * (4096 * 20 + 20 + 1) * votes.length := by ring
    rw [this]
    omega
  · rw [e4, e1]
    rw [List.forall₂_iff_get] at hcrp
    refine ⟨hcrp.1.symm, fun j q row hq hrow => ?_⟩
    obtain ⟨h1, h2⟩ := List.getElem?_eq_some_iff.1 hq
    obtain ⟨h3, h4⟩ := List.getElem?_eq_some_iff.1 hrow
    have := hcrp.2 j h1 h3
    simpa only [List.get_eq_getElem, h2, h4] using this

/-- A vote of three, two of them for, among two parties. -/
example : voting luckyBuild votingParams 0 2 [1, 0, 1] ⟨List.replicate 3 (List.replicate 4096 5), fun _ => exRng, fun _ => exRng, fun _ => exRng, fun _ => exRng, fun _ => exRng, fun _ => exRng⟩ = Res.ok 2 := by
  rw [C61_voting_program luckyBuild_ok luckyBuild_lucky 0 (by decide) (by decide) (by decide) (by decide) ?_ (fun _ => ⟨exRng_ok, exRng_ok, exRng_ok, exRng_ok, exRng_ok, exRng_ok⟩)]
  · rfl
  · have hx : ∀ q, 5 < q → (List.replicate 4096 5).length = 4096 ∧ ∀ x ∈ List.replicate 4096 5, x < q := fun q hq => ⟨List.length_replicate, fun x hx => by rw [List.eq_of_mem_replicate hx]; exact hq⟩
    exact .cons (hx _ (by decide)) (.cons (hx _ (by decide)) (.cons (hx _ (by decide)) .nil))

end Fhe.Props
