import Verif.Lemmas.OtherDegree
import Verif.Props.BfvCipher
/-!
# Bytes written for a ring of another degree

The bytes of a polynomial carry its degree, but `from_bytes` does not compare it with the degree of the context it is given.
-/
namespace Fhe.Props
open Nega Poly ParamsBuilder

variable {b : Build} {r : Rep} {c c' : Context} {moduli : List Nat} {N N' : Nat}

/-- C88: bytes of a polynomial written for another degree, the moduli being the same, are accepted exactly if all the residues fit into one polynomial: they are
then its coefficients. -/
theorem C88_poly (hb : b.OK) (hc' : Context.new b moduli N' = some (.ok c')) (hc : Context.new b moduli N = some (.ok c)) (hN : N' ≠ N) (hN' : N' ≤ 2 ^ 31)
    (hL : moduli.length * (8 * N') ≤ 2 ^ 63) {p : Poly r} {f : c'.Elem} (hp : Represents c' p f) :
    ∃ bytes, p.toBytes = some bytes ∧
      (moduli.length * N' ≤ N → ∃ q, Poly.fromBytes r bytes c = some (.ok q) ∧ Spread c' c p q ∧ q.vt = false) ∧
      (N < moduli.length * N' → Poly.fromBytes r bytes c = some (.error (.invalidCoefficientCount (moduli.length * N') N moduli.length))) := by
  obtain ⟨n', hd', hw', hm'⟩ := Context.new_inv hb hc'
  obtain ⟨n, hd, hw, hm⟩ := Context.new_inv hb hc
  have hD' : c'.degree = N' := by rw [hw'.level.degree, hd']
  have hD : c.degree = N := by rw [hw.level.degree, hd]
  have hn : n' ≤ 31 := by rw [hd'] at hN'; exact (Nat.pow_le_pow_iff_right (by norm_num)).1 hN'
  obtain ⟨bytes, e1, -, -, e2, e3⟩ := Poly.fromBytes_other (r := r) (vt := p.vt) hw hw' hn (by rw [hm', hD']; exact hL) (by rw [hm, hm']) (by rw [hD, hD']; exact hN) f
  have he := (represents_iff hw').1 hp
  rw [← he] at e1
  rw [hm, hD, hD'] at e2 e3
  refine ⟨bytes, e1, fun hle => ⟨_, e2 hle, ?_, rfl⟩, e3⟩
  rw [he]
  exact Poly.spread_enc hw hw' (by rw [hm, hm']) (by rw [hm, hD, hD']; exact hle) f

variable {st st' : ParamsBuilder} {par par' : Par} {g : Prg} {ct : Ciphertext}

/-- C88: the same for ciphertexts at any level: those with parameters of another degree and the same moduli are accepted exactly if the residues of a
part fit into one polynomial.  The level and the seed are kept; a part expanded from the seed is that of the parameters read with. -/
theorem C88_ciphertext (hb : b.OK) (h' : build b st' = Res.ok par'.toBfvParameters) (h : build b st = Res.ok par.toBfvParameters) (hm : par'.moduli = par.moduli) (hd : par'.degree ≠ par.degree)
    (h32 : par.moduli.length ≤ 2 ^ 32) (hg : g.OK) (hct : ct.WellFormed g par') :
    ∃ c c' bytes, par'.contextAtLevel ct.level = Res.ok c' ∧ par.contextAtLevel ct.level = Res.ok c ∧ ct.toBytes = some bytes ∧
      ((par.moduli.length - ct.level) * par'.degree ≤ par.degree → ∃ ps last, Ciphertext.fromBytes g bytes par = Res.ok { par, seed := ct.seed, c := ps ++ last, level := ct.level } ∧
        List.Forall₂ (fun p q => Spread c' c p q ∧ q.vt = true) (if ct.seed = none then ct.c else ct.c.dropLast) ps ∧
        (match ct.seed with | none => last = [] | some seed => ∃ p, g.poly .ntt c seed = some p ∧ last = [p.allowVt])) ∧
      (par.degree < (par.moduli.length - ct.level) * par'.degree →
        Ciphertext.fromBytes g bytes par = Res.err (.math (.invalidCoefficientCount ((par.moduli.length - ct.level) * par'.degree) par.degree (par.moduli.length - ct.level)))) := by
  obtain ⟨n, hw, -⟩ := build_inv hb h
  obtain ⟨n', hw', -⟩ := build_inv hb h'
  obtain ⟨p, hp⟩ := List.exists_mem_of_ne_nil ct.c (by intro h0; have := hct.parts; rw [h0] at this; simp at this)
  obtain ⟨l', ha', -⟩ := AtLevel.ofContext hw' (hct.valid p hp).2
  obtain ⟨l, ha⟩ := AtLevel.ofLt hw (i := ct.level) (by rw [← hm]; exact ha'.lt)
  obtain ⟨bytes, e1, e2, e3⟩ := Ciphertext.fromBytes_other hw hw' hg hm hd h32 hct ha ha'
  exact ⟨l.ctx, l'.ctx, bytes, ha'.contextAt, ha.contextAt, e1, e2, e3⟩

/-- Two degrees over the moduli 97 and 193. -/
def exTwo (N : Nat) : ParamsBuilder := { degree := N, plaintext := 17, variance := 1, moduli := [97, 193] }

theorem exTwo_par {n : Nat} (hn : n = 3 ∨ n = 4) : ∃ par : Par, build luckyBuild (exTwo (2 ^ n)) = Res.ok par.toBfvParameters ∧ par.degree = 2 ^ n ∧ par.moduli = [97, 193] ∧
    par.plaintext.value = 17 ∧ par.modulusAt 0 = 18721 := by
  have hv : ValidParams (exTwo (2 ^ n)).degree (exTwo (2 ^ n)).variance (exTwo (2 ^ n)).plaintext (exTwo (2 ^ n)).moduli := by
    refine { pow_two := ⟨n, by omega, by omega, rfl⟩, variance_range := by rcases hn with rfl | rfl <;> decide, plaintext := Or.inl (by rcases hn with rfl | rfl <;> decide), nodup := by rcases hn with rfl | rfl <;> decide, range := by rcases hn with rfl | rfl <;> decide, prime := ?_, ntt := ?_, lt := by rcases hn with rfl | rfl <;> decide, coprime := by rcases hn with rfl | rfl <;> decide }
    · simp only [exTwo, List.mem_cons, List.not_mem_nil, or_false, forall_eq_or_imp, forall_eq]; norm_num
    · rcases hn with rfl | rfl <;> decide
  obtain ⟨par, h⟩ : ∃ par, build luckyBuild (exTwo (2 ^ n)) = Res.ok par := by
    refine C31_complete luckyBuild_ok luckyBuild_lucky rfl hv (by rcases hn with rfl | rfl <;> decide) fun l hl => ?_
    by_contra hc
    push Not at hc
    exact enough_primes (n := n) (by omega) (moduli := (exTwo (2 ^ n)).moduli) (by rcases hn with rfl | rfl <;> decide) (by rcases hn with rfl | rfl <;> decide) (l := l) (by omega) fun p h1 h2 => hc p h1 h2
  obtain ⟨-, e1, -, e3, e2 | e2⟩ := C31_sound luckyBuild_ok h
  swap
  · exact absurd e2.1 (by rcases hn with rfl | rfl <;> decide)
  have hm : par.moduli = [97, 193] := e2.2
  refine ⟨{ toBfvParameters := par, addr := 0 }, h, e1, hm, e3, ?_⟩
  unfold BfvParameters.modulusAt
  show (par.moduli.take (par.moduli.length - _)).prod = _
  rw [hm]; rfl

/-- A ciphertext encrypted with degree 8 and two moduli is accepted as a ciphertext of degree 16, where it has one half for each modulus; one of degree 16 is refused
with degree 8. -/
example : ∃ (par par' : Par) (ct ct' : Ciphertext) (bytes bytes' : List Nat), par.degree = 16 ∧ par'.degree = 8 ∧ ct.toBytes = some bytes ∧ ct'.toBytes = some bytes' ∧
    (∃ p s q c c', ct'.c = [p, s] ∧ Ciphertext.fromBytes exPrg bytes' par = Res.ok { par, seed := ct'.seed, c := q, level := 0 } ∧ q.length = 2 ∧ Spread c' c p (q.headD p)) ∧
    Ciphertext.fromBytes exPrg bytes par' = Res.err (.math (.invalidCoefficientCount 32 8 2)) := by
  have hb := luckyBuild_ok
  have key : ∀ {n : Nat} (hn : n = 3 ∨ n = 4), ∃ (par : Par) (ct : Ciphertext), build luckyBuild (exTwo (2 ^ n)) = Res.ok par.toBfvParameters ∧ par.degree = 2 ^ n ∧ par.moduli = [97, 193] ∧
      ct.WellFormed exPrg par ∧ ct.c.length = 2 ∧ ct.level = 0 ∧ ct.seed ≠ none := by
    intro n hn
    obtain ⟨par, h, hd, hm, ht, h0⟩ := exTwo_par hn
    obtain ⟨sk, s, -, hk, hs⟩ := C37_secret_key hb h exRng_ok
    obtain ⟨m, -, e1, ⟨pt, -, e2, -⟩, -⟩ := C35_poly hb h (level := 0) (by rw [hm]; decide) (by rw [h0, ht]; decide) (v := [1, 2, 16]) (by rw [hd]; rcases hn with rfl | rfl <;> decide) (by rw [ht]; decide)
    obtain ⟨ct, v, f1, f2, f3, f4, f5, f6⟩ := C37_encrypt hb h hk exPrg_ok (by rw [h0, ht]; decide) e2 (seed := List.replicate 32 7) rfl exRng_ok
    exact ⟨par, ct, h, hd, hm, f6, f4, f2.level_eq, by rw [f5]; simp⟩
  obtain ⟨par, ct, h, hd, hm, hct, hl, hlev, hs⟩ := key (Or.inr rfl)
  obtain ⟨par', ct', h', hd', hm', hct', hl', hlev', hs'⟩ := key (Or.inl rfl)
  obtain ⟨c, c', bytes', -, -, e1, e2, -⟩ := C88_ciphertext hb h' h (by rw [hm, hm']) (by rw [hd, hd']; decide) (by rw [hm]; decide) exPrg_ok hct'
  obtain ⟨_, _, bytes, -, -, f1, -, f2⟩ := C88_ciphertext hb h h' (by rw [hm, hm']) (by rw [hd, hd']; decide) (by rw [hm']; decide) exPrg_ok hct
  rw [hm', hlev, hd, hd'] at f2
  rw [hm, hlev', hd, hd'] at e2
  obtain ⟨ps, last, g1, g2, g3⟩ := e2 (by decide)
  refine ⟨par, par', ct, ct', bytes, bytes', hd, hd', f1, e1, ?_, f2 (by decide)⟩
  match hc : ct'.c, hl' with
  | [p, s], _ =>
    rw [if_neg hs', hc] at g2
    cases g2 with
    | cons a1 a2 =>
      cases a2
      rename_i q
      cases hse : ct'.seed with
      | none => exact absurd hse hs'
      | some seed =>
        rw [hse] at g1 g3
        obtain ⟨w, -, rfl⟩ := g3
        exact ⟨p, s, _, c, c', rfl, g1, rfl, a1.1⟩

end Fhe.Props
