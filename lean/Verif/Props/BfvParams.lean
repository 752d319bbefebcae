import Verif.Lemmas.BfvExample
import Verif.Props.RqMore
/-!
# Properties C31, C32, C33: BFV parameters, their serialization, and the order of the slots
-/
namespace Fhe.Props
open ParamsBuilder

variable {b : Build}

/-- The documented conditions on a degree, a variance, a plaintext modulus and a list of ciphertext moduli. -/
structure ValidParams (degree variance t : Nat) (moduli : List Nat) : Prop where
  pow_two : ∃ n, 3 ≤ n ∧ n ≤ 16 ∧ degree = 2 ^ n
  variance_range : 1 ≤ variance ∧ variance ≤ 32
  plaintext : (2 ≤ t ∧ t < 2 ^ 62) ∨ 2 ^ 64 ≤ t
  nodup : moduli.Nodup
  range : ∀ q ∈ moduli, q < 2 ^ 62
  prime : ∀ q ∈ moduli, q.Prime
  ntt : ∀ q ∈ moduli, q % (2 * degree) = 1
  lt : t < moduli.prod
  coprime : t.Coprime moduli.prod

/-- A prime of exactly `size` bits that is one modulo `2 * degree`. -/
def FitsSize (degree size p : Nat) : Prop := p.Prime ∧ 2 ^ (size - 1) ≤ p ∧ p < 2 ^ size ∧ p % (2 * degree) = 1

theorem moduliOK_iff {degree t : Nat} {moduli : List Nat} : ModuliOK degree moduli t ↔
    moduli.Nodup ∧ (∀ q ∈ moduli, q < 2 ^ 62) ∧ (∀ q ∈ moduli, q.Prime) ∧ (∀ q ∈ moduli, q % (2 * degree) = 1) ∧ t < moduli.prod ∧ t.Coprime moduli.prod := by
  constructor
  · intro h
    exact ⟨h.nodup, fun q hq => (h.range q hq).2, h.prime, h.ntt, h.lt, coprime_prod h.coprime⟩
  · rintro ⟨h1, h2, h3, h4, h5, h6⟩
    exact ⟨h1, fun q hq => ⟨(h3 q hq).two_le, h2 q hq⟩, h4, h3, h5, fun q hq => Nat.Coprime.coprime_dvd_right (List.dvd_prod hq) h6⟩

theorem ValidParams.moduliOK {degree variance t : Nat} {moduli : List Nat} (h : ValidParams degree variance t moduli) : ModuliOK degree moduli t :=
  moduliOK_iff.2 ⟨h.nodup, h.range, h.prime, h.ntt, h.lt, h.coprime⟩

/-- C31: parameters that are built are valid and as requested; generated moduli have the requested sizes. -/
theorem C31_sound (hb : b.OK) {s : ParamsBuilder} {par : BfvParameters} (h : build b s = Res.ok par) :
    ValidParams par.degree par.variance par.plaintext.value par.moduli ∧
    par.degree = s.degree ∧ par.variance = s.variance ∧ par.plaintext.value = s.plaintext ∧
    ((s.moduliSizes = [] ∧ par.moduli = s.moduli) ∨
      (s.moduli = [] ∧ List.Forall₂ (fun size p => 10 ≤ size ∧ size ≤ 62 ∧ FitsSize s.degree size p) s.moduliSizes par.moduli)) := by
  obtain ⟨n, hw, e1, e2, e3, -, e4⟩ := build_inv hb h
  obtain ⟨a1, a2, a3, a4, a5, a6⟩ := moduliOK_iff.1 hw.moduli
  refine ⟨⟨⟨n, hw.three_le, hw.le_16, hw.degree⟩, hw.variance, ?_, a1, a2, a3, a4, a5, a6⟩, e1.symm, e2.symm, e3.symm, ?_⟩
  · rcases hw.plaintext with ⟨m, -, h, -⟩ | ⟨h, -⟩
    · exact Or.inl h
    · exact Or.inr h
  · rcases e4 with h | ⟨-, h1, h2⟩
    · exact Or.inl h
    · exact Or.inr ⟨h1, h2⟩

/-- C31: a request that is invalid is rejected with an error, not with a panic: no power of two, a variance out of range, both or
none of moduli and sizes, a plaintext modulus out of range, invalid moduli, or a size out of range. -/
theorem C31_rejects (s : ParamsBuilder)
    (h : (¬ ∃ n, 3 ≤ n ∧ n ≤ 16 ∧ s.degree = 2 ^ n) ∨ ¬ (1 ≤ s.variance ∧ s.variance ≤ 32) ∨ (s.moduli ≠ [] ∧ s.moduliSizes ≠ []) ∨ (s.moduli = [] ∧ s.moduliSizes = []) ∨
      ¬ ((2 ≤ s.plaintext ∧ s.plaintext < 2 ^ 62) ∨ 2 ^ 64 ≤ s.plaintext) ∨ (s.moduliSizes = [] ∧ ¬ ValidParams s.degree s.variance s.plaintext s.moduli) ∨
      ∃ size ∈ s.moduliSizes, ¬ (10 ≤ size ∧ size ≤ 62)) :
    ∃ e, build b s = Res.err e := by
  obtain ⟨c1, c2⟩ := validateConfiguration_spec s
  unfold build
  rcases Res.noPanic_iff.1 c1 with ⟨⟨⟩, hc⟩ | ⟨e, hc⟩
  swap
  · rw [hc, Res.err_bind]; exact ⟨e, rfl⟩
  obtain ⟨k1, k2, k3⟩ := c2.1 hc
  rw [hc, Res.ok_bind]
  obtain ⟨t1, t2⟩ := tryNew_spec b.cfg s.plaintext
  rcases Res.noPanic_iff.1 t1 with ⟨t, ht⟩ | ⟨e, ht⟩
  swap
  · rw [ht, Res.err_bind]; exact ⟨e, rfl⟩
  have ht' := (t2 t).1 ht
  have htv : t.value = s.plaintext := by rcases ht' with ⟨m, -, h2, rfl⟩ | ⟨h2, rfl⟩ <;> rfl
  have htr : (2 ≤ s.plaintext ∧ s.plaintext < 2 ^ 62) ∨ 2 ^ 64 ≤ s.plaintext := by
    rcases ht' with ⟨m, -, h2, -⟩ | ⟨h2, -⟩
    · exact Or.inl h2
    · exact Or.inr h2
  rw [ht, Res.ok_bind]
  have hdeg : 1 ≤ s.degree := by obtain ⟨n, -, -, e⟩ := k1; rw [e]; exact Nat.one_le_two_pow
  rcases h with h | h | h | h | h | ⟨h0, h⟩ | ⟨size, hs, h⟩
  · exact absurd k1 h
  · exact absurd k2 h
  · rcases k3 with k | k
    · exact absurd k.1 h.1
    · exact absurd k.2 h.2
  · rcases k3 with k | k
    · exact absurd h.2 k.2
    · exact absurd h.1 k.1
  · exact absurd htr h
  · unfold chooseModuli
    rw [if_neg (by simp [h0]), Res.ok_bind]
    obtain ⟨v1, v2⟩ := validateModuli_spec b.cfg s.degree s.moduli t.value
    rcases Res.noPanic_iff.1 v1 with ⟨⟨⟩, hv⟩ | ⟨e, hv⟩
    · obtain ⟨a1, a2, a3, a4, a5, a6⟩ := moduliOK_iff.1 (v2.1 hv)
      rw [htv] at a5 a6
      exact absurd ⟨k1, k2, htr, a1, a2, a3, a4, a5, a6⟩ h
    · rw [hv, Res.err_bind]; exact ⟨e, rfl⟩
  · unfold chooseModuli
    rw [if_pos (List.ne_nil_of_mem hs)]
    obtain ⟨g1, g2, -⟩ := generateModuli_spec hdeg (required := fun size => s.moduliSizes.count size) s.moduliSizes 0 [] (fun _ => 0) .nil
    rcases Res.noPanic_iff.1 g1 with ⟨l, hl⟩ | ⟨e, hl⟩
    · obtain ⟨l', -, -, h3, -⟩ := g2 l hl
      obtain ⟨i, hi, rfl⟩ := List.mem_iff_getElem.1 hs
      have := (List.forall₂_iff_get.1 h3).2 i hi (by rw [← h3.length_eq]; exact hi)
      exact absurd ⟨this.1, this.2.1⟩ h
    · rw [hl, Res.err_bind]; exact ⟨e, rfl⟩

theorem tryNew_cases {t v : Nat} (_ : t = v) (h : (2 ≤ v ∧ v < 2 ^ 62) ∨ 2 ^ 64 ≤ v) : ∃ t, PlaintextModulus.tryNew b.cfg v = Res.ok t ∧ t.value = v ∧
    ((∃ m, Modulus.new b.cfg t.value = some (.ok m) ∧ (2 ≤ t.value ∧ t.value < 2 ^ 62) ∧ t.small = some m) ∨ (2 ^ 64 ≤ t.value ∧ t.small = none)) := by
  obtain ⟨t1, t2⟩ := tryNew_spec b.cfg v
  rcases h with h | h
  · obtain ⟨m, hm, -⟩ := Modulus.new_eq_ok (cfg := b.cfg) h
    exact ⟨⟨v, some m⟩, (t2 _).2 (Or.inl ⟨m, hm, h, rfl⟩), rfl, Or.inl ⟨m, hm, h, rfl⟩⟩
  · exact ⟨⟨v, none⟩, (t2 _).2 (Or.inr ⟨h, rfl⟩), rfl, Or.inr ⟨h, rfl⟩⟩

/-- C31: a valid request with up to 31 explicit moduli is accepted, when there are enough further primes of 62 bits for the
multiplication basis and the random stream yields the nonsquares that the transforms need. -/
theorem C31_complete (hb : b.OK) (hl : b.Lucky) {s : ParamsBuilder} (hs : s.moduliSizes = []) (h : ValidParams s.degree s.variance s.plaintext s.moduli) (h31 : s.moduli.length ≤ 31)
    (hprimes : ∀ l : List Nat, l.length ≤ s.moduli.length → ∃ p, FitsSize s.degree 62 p ∧ p ∉ s.moduli ∧ p ∉ l) :
    ∃ par, build b s = Res.ok par := by
  obtain ⟨n, h3, h16, hn⟩ := h.pow_two
  have hne : s.moduli ≠ [] := by
    intro h0
    have := h.lt
    rw [h0, List.prod_nil] at this
    rcases h.plaintext with h | h <;> omega
  obtain ⟨t, ht, htv, ht'⟩ := tryNew_cases (b := b) rfl h.plaintext
  have hm := h.moduliOK
  unfold build
  rw [(validateConfiguration_spec s).2.2 ⟨h.pow_two, h.variance_range, Or.inr ⟨hne, hs⟩⟩, Res.ok_bind, ht, Res.ok_bind]
  unfold chooseModuli
  rw [if_neg (by simp [hs]), Res.ok_bind, (validateModuli_spec b.cfg s.degree s.moduli t.value).2.2 (by rw [htv]; exact hm), Res.ok_bind]
  rw [hn] at hm hprimes ⊢
  rw [← htv] at hm
  rcases assemble_total hb hl h3 h16 s.variance ht' hm hne h31 with h' | ⟨l, -, hl1, hl2, -⟩
  · exact h'
  · obtain ⟨p, p1, p2, p3⟩ := hprimes l (by omega)
    exact absurd (hl2 p p1 p2) p3

/-- C31: with up to 31 moduli or sizes, the builder never panics, whatever the request (when the random stream yields the
nonsquares that the transforms need). -/
theorem C31_no_panic (hb : b.OK) (hl : b.Lucky) (s : ParamsBuilder) (h1 : s.moduli.length ≤ 31) (h2 : s.moduliSizes.length ≤ 31) : build b s ≠ Res.panic := by
  obtain ⟨c1, c2⟩ := validateConfiguration_spec s
  obtain ⟨t1, t2⟩ := tryNew_spec b.cfg s.plaintext
  unfold build
  refine c1.bind fun _ hc => t1.bind fun t ht => ?_
  obtain ⟨⟨n, h3, h16, hn⟩, k2, k3⟩ := c2.1 hc
  have hdeg : 1 ≤ s.degree := by rw [hn]; exact Nat.one_le_two_pow
  refine Res.NoPanic.bind ?_ fun l hl' => (validateModuli_spec b.cfg s.degree l t.value).1.bind fun _ hv => ?_
  · unfold chooseModuli
    split
    · exact (generateModuli_spec hdeg s.moduliSizes 0 [] _ .nil).1
    · exact Res.noPanic_ok _
  · have hm := (validateModuli_spec b.cfg s.degree l t.value).2.1 hv
    have hlen : l.length ≤ 31 := by
      rcases chooseModuli_inv hdeg hl' with ⟨-, rfl⟩ | ⟨-, h⟩
      · exact h1
      · rw [← h.length_eq]; exact h2
    have ht' : (∃ m, Modulus.new b.cfg t.value = some (.ok m) ∧ (2 ≤ t.value ∧ t.value < 2 ^ 62) ∧ t.small = some m) ∨ (2 ^ 64 ≤ t.value ∧ t.small = none) := by
      rcases (t2 t).1 ht with ⟨m, h1, h2, rfl⟩ | ⟨h2, rfl⟩
      · exact Or.inl ⟨m, h1, h2, rfl⟩
      · exact Or.inr ⟨h2, rfl⟩
    have hne : l ≠ [] := by
      rintro rfl
      have := hm.lt
      rw [List.prod_nil] at this
      rcases ht' with ⟨m, -, h2, -⟩ | ⟨h2, -⟩ <;> omega
    rw [hn] at hm ⊢
    rcases assemble_total hb hl h3 h16 s.variance ht' hm hne hlen with ⟨p, h'⟩ | ⟨_, h', -⟩
    · rw [h']; exact Res.noPanic_ok _
    · rw [h']; exact Res.noPanic_err _

/-- C31: the levels of built parameters: level `i` exists exactly below the number of moduli, its context is that of the moduli
without the last `i`, and the level of a context is recovered from the context. -/
theorem C31_levels (hb : b.OK) {s : ParamsBuilder} {par : BfvParameters} (h : build b s = Res.ok par) (i : Nat) :
    (i < par.moduli.length → ∃ c, par.contextAtLevel i = Res.ok c ∧ Context.new b (par.moduli.take (par.moduli.length - i)) par.degree = some (.ok c) ∧ par.levelOfContext c = Res.ok i) ∧
    (par.moduli.length ≤ i → par.contextAtLevel i = Res.err (.invalidLevel i 0 (par.moduli.length - 1))) ∧
    (∀ c, par.levelOfContext c = Res.ok i → par.contextAtLevel i = Res.ok c) := by
  obtain ⟨n, hw, -⟩ := build_inv hb h
  obtain ⟨pc, -, hlev⟩ := hw.levels
  have hpos := List.length_pos_of_ne_nil hw.ne_nil
  refine ⟨fun hi => ?_, fun hi => ?_, fun c hc => ?_⟩
  · have hi' : i < par.levels.length := by rw [hw.length]; exact hi
    have hget := List.getElem?_eq_getElem hi'
    have hl := hlev i _ hget
    refine ⟨par.levels[i].ctx, ?_, ?_, ?_⟩
    · unfold BfvParameters.contextAtLevel; rw [hget]
    · rw [hl.ctx]; exact hl.bridge.ctx
    · have hlen : par.levels[i].ctx.moduli.length = par.moduli.length - i := by
        rw [hl.ctx]
        obtain ⟨_, -, -, hm⟩ := Context.new_inv hb hl.bridge.ctx
        rw [hm, List.length_take]; omega
      unfold BfvParameters.levelOfContext
      rw [hlen, if_neg (by omega), show par.moduli.length - (par.moduli.length - i) = i by omega, hget]
      simp
  · unfold BfvParameters.contextAtLevel BfvParameters.maxLevel
    rw [List.getElem?_eq_none (by rw [hw.length]; exact hi), hw.length, subU_eq hpos]
    rfl
  · unfold BfvParameters.levelOfContext at hc
    split at hc
    · exact absurd hc Res.err_ne_ok
    split at hc
    · exact absurd hc Res.err_ne_ok
    rename_i l hl
    split at hc
    · rename_i he
      rw [Res.ok_inj] at hc
      subst hc
      unfold BfvParameters.contextAtLevel
      rw [hl, ← he]
    · exact absurd hc Res.err_ne_ok

/-- C31: the predefined parameters have the degrees and moduli of the table and a plaintext modulus of the requested size; there
is at least one.  Sizes outside `1..63` panic. -/
theorem C31_defaults (hb : b.OK) (bits : Nat) :
    (∀ l, defaultParameters128 b bits = Res.ok l → l ≠ [] ∧ ∀ par ∈ l, ∃ e ∈ defaultTable, par.degree = e.1 ∧ par.moduli = e.2 ∧ par.variance = 10 ∧
      FitsSize e.1 bits par.plaintext.value) ∧
    (bits = 0 ∨ 64 ≤ bits → defaultParameters128 b bits = Res.panic) := by
  constructor
  · intro l h
    unfold defaultParameters128 at h
    simp only [Res.bind_eq_ok, Res.lift_eq_ok] at h
    obtain ⟨⟨⟩, hck, r, hr, h⟩ := h
    split at h
    · exact absurd h Res.err_ne_ok
    rename_i hne
    rw [Res.pure_eq, Res.ok_inj] at h
    subst h
    refine ⟨hne, fun par hpar => ?_⟩
    have hr := mapM_some_inv hr
    obtain ⟨o, ho, rfl⟩ := List.mem_filterMap.1 hpar
    obtain ⟨i, hi, hio⟩ := List.mem_iff_getElem.1 ho
    have hi' : i < defaultTable.length := by rw [hr.length_eq]; exact hi
    have he := (List.forall₂_iff_get.1 hr).2 i hi' hi
    simp only [List.get_eq_getElem] at he
    have hmem : defaultTable[i] ∈ defaultTable := List.getElem_mem _
    refine ⟨defaultTable[i], hmem, ?_⟩
    generalize defaultTable[i] = e at he hmem
    rw [hio] at he
    unfold defaultEntry at he
    simp only [Option.bind_eq_bind, Option.bind_eq_some_iff] at he
    obtain ⟨sh, hsh, ⟨⟩, hck', t?, hgen, he⟩ := he
    have hb1 : bits < 64 := by by_contra hc; rw [check, if_neg hc] at hck; cases hck
    rw [subU_eq hb1.le, Option.some.injEq] at hsh
    subst hsh
    have hb2 : 64 - bits < 64 := by by_contra hc; rw [check, if_neg hc] at hck'; cases hck'
    cases t? with
    | none => simp at he
    | some t =>
      simp only at he
      split at he
      swap
      · simp at he
      have hr10 : 10 ≤ bits ∧ bits ≤ 62 := by
        by_contra hc
        rw [C09_generate_prime_out_of_range hc] at hgen
        cases hgen
      have hpow : (2 ^ 64 - 1) >>> (64 - bits) = 2 ^ bits - 1 := by
        rw [Nat.shiftRight_eq_div_pow]
        have : 2 ^ 64 = 2 ^ bits * 2 ^ (64 - bits) := by rw [← pow_add]; congr 1; omega
        have h1 : 0 < 2 ^ bits := by positivity
        have h2 : 0 < 2 ^ (64 - bits) := by positivity
        rw [this]
        refine Nat.div_eq_of_lt_le ?_ ?_
        · rw [Nat.sub_mul, one_mul]; omega
        · rw [Nat.sub_add_cancel h1]; exact Nat.sub_lt (Nat.mul_pos h1 h2) one_pos
      have hbig : 1024 ≤ 2 ^ bits := by
        calc 1024 = 2 ^ 10 := by norm_num
          _ ≤ _ := Nat.pow_le_pow_right (by norm_num) hr10.1
      rw [hpow] at hgen
      have hdeg : 2 ≤ 2 * e.1 := by
        have := hmem
        simp only [defaultTable, List.mem_cons, List.not_mem_nil, or_false] at this
        rcases this with rfl | rfl | rfl | rfl | rfl <;> simp
      have hcand : IsCandidate bits (2 * e.1) (2 ^ bits - 1) t := by
        rcases C09_generate_prime hr10.1 hr10.2 hdeg (ub := 2 ^ bits - 1) (by omega) (by omega) with ⟨p, g1, g2, -⟩ | ⟨g1, -⟩
        · rw [hgen] at g1
          obtain rfl : t = p := by simpa using g1
          exact g2
        · rw [hgen] at g1; simp at g1
      unfold Res.okOrNone at he
      split at he
      · cases he
      · simp at he
      rename_i a ha
      obtain rfl : a = par := by simpa using he
      obtain ⟨-, s1, s2, s3, s4⟩ := C31_sound hb (s := ({} : ParamsBuilder).setDegree e.1 |>.setPlaintext t |>.setModuli e.2) (par := a) ha
      refine ⟨s1, ?_, s2, ?_⟩
      · rcases s4 with s4 | s4
        · exact s4.2
        · have h0 : e.2 = [] := s4.1
          have := hmem
          simp only [defaultTable, List.mem_cons, List.not_mem_nil, or_false] at this
          rcases this with rfl | rfl | rfl | rfl | rfl <;> simp at h0
      · rw [s3]
        obtain ⟨c1, c2, c3, c4, c5⟩ := hcand
        exact ⟨c1, c2, c3, c4⟩
  · rintro (rfl | h)
    · rfl
    · unfold defaultParameters128
      rw [show check (bits < 64) = none from if_neg (by omega)]
      rfl

/-- C32: the message written for built parameters is read back as equal parameters. -/
theorem C32_roundtrip (hb : b.OK) {s : ParamsBuilder} {par : BfvParameters} (h : build b s = Res.ok par) :
    BfvParameters.fromMsg b par.toMsg = Res.ok par := by
  obtain ⟨n, hw, e1, e2, e3, hasm, -⟩ := build_inv hb h
  have hdeg : par.degree % 2 ^ 32 = par.degree := by
    rw [hw.degree]
    exact Nat.mod_eq_of_lt (Nat.pow_lt_pow_right (by norm_num) (by have := hw.le_16; omega))
  have hvar : par.variance % 2 ^ 32 = par.variance := Nat.mod_eq_of_lt (by have := hw.variance; omega)
  have key : build b (({} : ParamsBuilder).setDegree par.degree |>.setPlaintext par.plaintext.value |>.setModuli par.moduli |>.setVariance par.variance) = Res.ok par := by
    unfold build
    rw [(validateConfiguration_spec _).2.2 ⟨⟨n, hw.three_le, hw.le_16, hw.degree⟩, hw.variance, Or.inr ⟨hw.ne_nil, rfl⟩⟩, Res.ok_bind]
    have ht : PlaintextModulus.tryNew b.cfg par.plaintext.value = Res.ok par.plaintext := by
      refine ((tryNew_spec b.cfg _).2 _).2 ?_
      rcases hw.plaintext with ⟨m, h1, h2, h3⟩ | ⟨h2, h3⟩
      · exact Or.inl ⟨m, h1, h2, by rw [← h3]⟩
      · exact Or.inr ⟨h2, by rw [← h3]⟩
    show (PlaintextModulus.tryNew b.cfg par.plaintext.value >>= _) = _
    rw [ht, Res.ok_bind]
    show (Res.ok par.moduli >>= _) = _
    rw [Res.ok_bind]
    show (validateModuli b.cfg par.degree par.moduli par.plaintext.value >>= _) = _
    rw [(validateModuli_spec _ _ _ _).2.2 hw.moduli, Res.ok_bind]
    exact hasm
  unfold BfvParameters.fromMsg BfvParameters.toMsg
  rcases hw.plaintext with ⟨m, h1, h2, h3⟩ | ⟨h2, h3⟩
  · obtain ⟨m', g1, g2, -⟩ := Modulus.new_eq_ok (cfg := b.cfg) h2
    rw [h1] at g1
    obtain rfl : m = m' := by simpa using g1
    simp only [h3, hdeg, hvar, g2]
    exact key
  · simp only [h3, hdeg, hvar, Nat.ofDigits_digits]
    exact key

/-- C32: a message without a plaintext modulus is rejected; so is any message whose data is invalid. -/
theorem C32_rejects (m : ParamsMsg) (h : m.plaintext = none ∨ (∃ v, m.plaintext = some (.word v) ∧ ¬ ValidParams m.degree m.variance v m.moduli) ∨
    ∃ bytes, m.plaintext = some (.big bytes) ∧ ¬ ValidParams m.degree m.variance (Nat.ofDigits 256 bytes) m.moduli) :
    ∃ e, BfvParameters.fromMsg b m = Res.err e := by
  unfold BfvParameters.fromMsg
  rcases h with h | ⟨v, h, hv⟩ | ⟨v, h, hv⟩
  · rw [h]; exact ⟨_, rfl⟩
  · rw [h]; exact C31_rejects _ (Or.inr (Or.inr (Or.inr (Or.inr (Or.inr (Or.inl ⟨rfl, hv⟩))))))
  · rw [h]; exact C31_rejects _ (Or.inr (Or.inr (Or.inr (Or.inr (Or.inr (Or.inl ⟨rfl, hv⟩))))))

/-- C33: the map from slots to positions of the transform is a permutation of the positions.  Position `j` of the transform holds
the value at the power `2 * bitRev j + 1` of the root of unity (C15), so slot `i` of the first row is the value at the power
`3 ^ i` and slot `i` of the second row is the value at the power `- 3 ^ i`. -/
theorem C33_index_map (hb : b.OK) {s : ParamsBuilder} {par : BfvParameters} (h : build b s = Res.ok par) {n : Nat} (hn : par.degree = 2 ^ n) :
    par.indexMap.Perm (List.range par.degree) ∧
    ∀ i, i < par.degree / 2 →
      2 * Spec.bitRev n (par.indexMap.getD i 0) + 1 = 3 ^ i % (2 * par.degree) ∧
      2 * Spec.bitRev n (par.indexMap.getD (par.degree / 2 + i) 0) + 1 = 2 * par.degree - 3 ^ i % (2 * par.degree) := by
  obtain ⟨n', hw, -⟩ := build_inv hb h
  obtain rfl : n = n' := Nat.pow_right_injective (le_refl 2) (hn.symm.trans hw.degree)
  have h3 := hw.three_le
  have h16 := hw.le_16
  have him := hw.indexMap
  rw [hn, indexMap_eq (by omega) (by omega), Option.some.injEq] at him
  rw [hn, ← him]
  have hN : 2 ^ n = 2 ^ (n - 1) + 2 ^ (n - 1) := by rw [← two_mul, ← pow_succ']; congr 1; omega
  have hhalf : 2 ^ n / 2 = 2 ^ (n - 1) := by omega
  have h2N : 2 * 2 ^ n = 2 ^ (n + 1) := by rw [pow_succ']
  constructor
  · have hnd : (tab (2 ^ n) (slotIndex n)).Nodup := by
      unfold tab
      refine List.Nodup.map_on ?_ List.nodup_range
      intro i hi j hj hij
      exact slotIndex_inj (by omega) (List.mem_range.1 hi) (List.mem_range.1 hj) hij
    refine (hnd.subperm ?_).perm_of_length_le (by rw [length_tab, List.length_range])
    intro x hx
    obtain ⟨i, -, rfl⟩ := mem_tab.1 hx
    exact List.mem_range.2 (slotIndex_lt n i)
  · intro i hi
    rw [hhalf] at hi ⊢
    rw [← NttOperator.revBits_eq_bitRev, ← NttOperator.revBits_eq_bitRev, NttOperator.tab_getD _ (by omega), NttOperator.tab_getD _ (by omega), h2N, slotIndex_fst hi, slotIndex_snd]
    exact ⟨rfl, rfl⟩

/-! ## Concrete instances -/

/-- Degree 8, moduli 97, 113, 193, plaintext modulus 17. -/
def exBuilder : ParamsBuilder := { degree := 8, plaintext := 17, variance := 1, moduli := [97, 113, 193] }

theorem exBuilder_valid : ValidParams exBuilder.degree exBuilder.variance exBuilder.plaintext exBuilder.moduli where
  pow_two := ⟨3, by norm_num, by norm_num, rfl⟩
  variance_range := by decide
  plaintext := Or.inl (by decide)
  nodup := by decide
  range := by decide
  prime := by simp only [exBuilder, List.mem_cons, List.not_mem_nil, or_false, forall_eq_or_imp, forall_eq]; norm_num
  ntt := by decide
  lt := by decide
  coprime := by decide

theorem exPar : ∃ par, build luckyBuild exBuilder = Res.ok par := by
  refine C31_complete luckyBuild_ok luckyBuild_lucky rfl exBuilder_valid (by decide) fun l hl => ?_
  by_contra hc
  push Not at hc
  exact enough_primes (n := 3) (by norm_num) (moduli := exBuilder.moduli) (by decide) (by decide) (l := l) (by omega) fun p h1 h2 => hc p h1 h2

example : ∃ par c, build luckyBuild exBuilder = Res.ok par ∧ BfvParameters.fromMsg luckyBuild par.toMsg = Res.ok par ∧ par.contextAtLevel 2 = Res.ok c ∧
    Context.new luckyBuild [97] 8 = some (.ok c) ∧ Spec.bitRev 3 (par.indexMap.getD 1 0) = 1 := by
  obtain ⟨par, h⟩ := exPar
  obtain ⟨-, e1, -, -, e2 | e2⟩ := C31_sound luckyBuild_ok h
  swap
  · exact absurd e2.1 (by decide)
  have hm : par.moduli = [97, 113, 193] := e2.2
  have hd : par.degree = 8 := e1
  obtain ⟨c, h1, h2, -⟩ := (C31_levels luckyBuild_ok h 2).1 (by rw [hm]; decide)
  rw [hm, hd] at h2
  refine ⟨par, c, h, C32_roundtrip luckyBuild_ok h, h1, h2, ?_⟩
  have := ((C33_index_map luckyBuild_ok h (n := 3) hd).2 1 (by rw [hd]; decide)).1
  rw [hd] at this
  omega

/-- A request by sizes that cannot be met: there is no prime of ten bits that is one modulo 1024. -/
example : ∃ e, build luckyBuild { degree := 512, plaintext := 17, moduliSizes := [5] } = Res.err e :=
  C31_rejects _ (Or.inr (Or.inr (Or.inr (Or.inr (Or.inr (Or.inr ⟨5, by simp, by norm_num⟩))))))

end Fhe.Props
