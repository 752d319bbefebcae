import Verif.Model.Rq
import Verif.Lemmas.Rns
import Verif.Lemmas.NttMain
/-! Polynomial contexts. -/
namespace Fhe
open NttOperator
open RnsContext (CoprimeAt)

/-- The generator draws below its bound. -/
def Build.OK (b : Build) : Prop := ∀ p i, 0 < p → b.rng p i < p

theorem collectResults_inv {α β : Type} {f : α → Panics (Except MathError β)} {l : List α} {r : List β}
    (h : RnsContext.collectResults f l = some (.ok r)) : List.Forall₂ (fun x y => f x = some (.ok y)) l r := by
  induction l generalizing r with
  | nil => rw [RnsContext.collectResults] at h; cases h; exact .nil
  | cons a l ih =>
    rw [RnsContext.collectResults] at h
    rcases ha : f a with _ | e | y
    · rw [ha] at h; cases h
    · rw [ha] at h; cases h
    · rw [ha] at h
      simp only [Option.bind_eq_bind, Option.bind_some] at h
      rcases hl : RnsContext.collectResults f l with _ | e | ys
      · rw [hl] at h; cases h
      · rw [hl] at h; cases h
      · rw [hl] at h; cases h
        exact .cons ha (ih hl)

/-- The inverse of `a` modulo a prime `p`, as computed. -/
def invVal (p a : Nat) : Nat := (a % p) ^ (p - 2) % p

theorem invVal_lt {p : Nat} (h : 0 < p) (a : Nat) : invVal p a < p := Nat.mod_lt _ h

theorem invVal_mul {p a : Nat} (hp : p.Prime) (ha : ¬ p ∣ a) : (invVal p a : ZMod p) * a = 1 := by
  have h := Modulus.fermat (a := a % p) hp (fun h => ha (Nat.dvd_of_mod_eq_zero h)) (Nat.mod_lt _ hp.pos)
  have h2 : ((a % p * invVal p a : Nat) : ZMod p) = ((1 : Nat) : ZMod p) := (ZMod.natCast_eq_natCast_iff _ _ _).2 h
  rw [Nat.cast_mul, ZMod.natCast_mod, Nat.cast_one, mul_comm] at h2
  exact h2

/-- What the constructor establishes for one level. -/
structure CtxLevel.WF (b : Build) (l : CtxLevel) (n : Nat) : Prop where
  degree : l.degree = 2 ^ n
  three_le : 3 ≤ n
  n_lt : n < 61
  ne_nil : l.ops ≠ []
  ops : ∀ op ∈ l.ops, ∃ ω ωi, op.WF n ω ωi
  cfg : ∀ op ∈ l.ops, op.p.vtCfg = b.cfg
  q : l.q = l.ops.map (·.p)
  moduli : l.moduli = l.ops.map (·.p.p)
  rns : l.rns.WF
  rns_moduli : l.rns.moduliU64 = l.moduli
  bitrev : l.bitrev = tab (2 ^ n) (revBits n)
  invLast : l.invLast = l.ops.dropLast.map fun op => invVal op.p.p (l.moduli.getLastD 0)
  invLastShoup : l.invLastShoup = l.ops.dropLast.map fun op => invVal op.p.p (l.moduli.getLastD 0) * 2 ^ 64 / op.p.p
  newOp : ∀ op ∈ l.ops, Context.newOp b (2 ^ n) op.p.p = some (.ok (op.p, op))
  rns_new : RnsContext.new b.cfg l.moduli = some (.ok l.rns)

/-- The parameters the constructor accepts. -/
structure Supported (b : Build) (moduli : List Nat) (n : Nat) : Prop where
  three_le : 3 ≤ n
  ne_nil : moduli ≠ []
  coprime : CoprimeAt moduli
  range : ∀ q ∈ moduli, 2 ≤ q ∧ q < 2 ^ 62
  prime : ∀ q ∈ moduli, q.Prime
  ntt : ∀ q ∈ moduli, q % (2 * 2 ^ n) = 1
  rng : ∀ q ∈ moduli, ∃ j < 100, ¬ IsSquare (b.rng q j : ZMod q)

theorem n_lt_of_mod {q n : Nat} (h2 : 2 ≤ q) (h62 : q < 2 ^ 62) (h : q % (2 * 2 ^ n) = 1) : n < 61 := by
  have : 2 * 2 ^ n < q := by
    by_contra hc
    rcases Nat.lt_or_ge q (2 * 2 ^ n) with h1 | h1
    · rw [Nat.mod_eq_of_lt h1] at h; omega
    · have : q = 2 * 2 ^ n := by omega
      rw [this, Nat.mod_self] at h; omega
  by_contra hc
  have h3 : 2 ^ 61 ≤ 2 ^ n := Nat.pow_le_pow_right (by norm_num) (by omega)
  omega

theorem eq_pow_log2 {n : Nat} : (2 ^ n).log2 = n := Nat.log2_two_pow

namespace Context
variable {b : Build}

theorem newOp_ok {n q : Nat} (hb : b.OK) (h3 : 3 ≤ n) (hr : 2 ≤ q ∧ q < 2 ^ 62) (hp : q.Prime)
    (hn : q % (2 * 2 ^ n) = 1) (hj : ∃ j < 100, ¬ IsSquare (b.rng q j : ZMod q)) :
    ∃ op ω ωi, newOp b (2 ^ n) q = some (.ok (op.p, op)) ∧ op.WF n ω ωi ∧ op.p.p = q ∧ op.p.vtCfg = b.cfg := by
  obtain ⟨m, hm, rfl, hc, hw⟩ := Modulus.new_eq_ok (cfg := b.cfg) hr
  have hn62 := n_lt_of_mod hr.1 hr.2 hn
  rcases new_supported (dbg := b.dbg) (rng := b.rng m.p) hw h3 (by omega) hn hp (fun i => hb _ _ hp.pos) with
    ⟨-, op, ω, ωi, h1, h2, h4⟩ | ⟨h1, -⟩
  · refine ⟨op, ω, ωi, ?_, h2, by rw [h4], by rw [h4, hc]⟩
    unfold newOp
    rw [hm]
    simp only [Option.bind_eq_bind, Option.bind_some, h1]
    rw [← h4]; rfl
  · obtain ⟨j, hj, hs⟩ := hj
    exact absurd (h1 j hj) hs

theorem newOp_inv {n q : Nat} (hb : b.OK) (h3 : 3 ≤ n) {m : Modulus} {op : NttOperator} (h : newOp b (2 ^ n) q = some (.ok (m, op))) :
    (2 ≤ q ∧ q < 2 ^ 62) ∧ q.Prime ∧ q % (2 * 2 ^ n) = 1 ∧ ∃ j < 100, ¬ IsSquare (b.rng q j : ZMod q) := by
  by_cases hr : 2 ≤ q ∧ q < 2 ^ 62
  · obtain ⟨m', hm, rfl, hc, hw⟩ := Modulus.new_eq_ok (cfg := b.cfg) hr
    unfold newOp at h
    rw [hm] at h
    simp only [Option.bind_eq_bind, Option.bind_some] at h
    have hn : n ≤ 62 := by
      rcases ho : NttOperator.new b.dbg (b.rng m'.p) m' (2 ^ n) with _ | _ | op'
      · rw [ho] at h; cases h
      · rw [ho] at h; cases h
      · obtain ⟨n', ω, ωi, hw', -, he⟩ := NttOperator.WF_of_new hw (fun i => hb _ _ hw.pos) ho
        have := Nat.pow_right_injective (le_refl 2) he
        have := hw'.n_lt
        omega
    by_cases hs : m'.p.Prime ∧ m'.p % (2 * 2 ^ n) = 1
    · rcases new_supported (dbg := b.dbg) (rng := b.rng m'.p) hw h3 hn hs.2 hs.1 (fun i => hb _ _ hs.1.pos) with
        ⟨⟨j, hj, hj'⟩, -⟩ | ⟨-, h2⟩
      · exact ⟨hr, hs.1, hs.2, j, hj, hj'⟩
      · rw [h2] at h; split at h <;> cases h
    · rw [new_unsupported h3 hn (fun hh => hs hh.symm)] at h
      cases h
  · unfold newOp at h
    rw [Modulus.new_eq_error hr] at h
    cases h

theorem invLastOne_eq {m : Modulus} (hm : m.WF) (hp : m.p.Prime) {a : Nat} (ha : a < 2 ^ 64) (hd : ¬ m.p ∣ a) :
    invLastOne a m = some (invVal m.p a, invVal m.p a * 2 ^ 64 / m.p) := by
  unfold invLastOne
  rw [Modulus.reduce_eq hm ha]
  simp only [Option.bind_eq_bind, Option.bind_some]
  rw [Modulus.inv_eq_some hm hp (fun h => hd (Nat.dvd_of_mod_eq_zero h)) (Nat.mod_lt _ hm.pos)]
  simp only [Option.bind_some]
  rw [Modulus.shoup_eq hm (Nat.mod_lt _ hm.pos)]
  rfl

theorem getLast_ne {l : List Nat} (hc : CoprimeAt l) (hp : ∀ q ∈ l, q.Prime) {q : Nat} (hq : q ∈ l.dropLast) : ¬ q ∣ l.getLastD 0 := by
  obtain ⟨i, hi, rfl⟩ := List.getElem_of_mem hq
  rw [List.length_dropLast] at hi
  have hi' : i < l.length := by omega
  have hL : l.length - 1 < l.length := by omega
  rw [List.getElem_dropLast]
  have e : l.getLastD 0 = l[l.length - 1] := by
    rw [List.getLastD_eq_getLast?, List.getLast?_eq_getElem?, List.getElem?_eq_getElem hL]; rfl
  rw [e]
  intro hd
  have h1 := hc i (l.length - 1) hi' hL (by omega)
  have h2 := Nat.eq_one_of_dvd_coprimes h1 (dvd_refl _) hd
  exact (hp _ (List.getElem_mem hi')).one_lt.ne' h2

theorem newLevel_ok {moduli : List Nat} {n : Nat} (hb : b.OK) (h : Supported b moduli n) :
    ∃ l, newLevel b moduli (2 ^ n) = some (.ok l) ∧ l.WF b n ∧ l.moduli = moduli := by
  classical
  obtain ⟨rns, hr1, hr2, hr3, -⟩ := RnsContext.new_ok (cfg := b.cfg) h.ne_nil h.coprime h.range
  have hop : ∀ q : Nat, ∃ op : NttOperator, q ∈ moduli → (newOp b (2 ^ n) q = some (.ok (op.p, op)) ∧ (∃ ω ωi, op.WF n ω ωi) ∧ op.p.p = q ∧ op.p.vtCfg = b.cfg) := by
    intro q
    by_cases hq : q ∈ moduli
    · obtain ⟨op, ω, ωi, h1, h2, h3, h4⟩ := newOp_ok hb h.three_le (h.range q hq) (h.prime q hq) (h.ntt q hq) (h.rng q hq)
      exact ⟨op, fun _ => ⟨h1, ⟨ω, ωi, h2⟩, h3, h4⟩⟩
    · exact ⟨⟨⟨0, 0, 0, 0, false, false⟩, 0, 0, [], [], [], [], 0, 0⟩, fun hh => absurd hh hq⟩
  choose g hg using hop
  have hcol : RnsContext.collectResults (newOp b (2 ^ n)) moduli = some (.ok (moduli.map fun q => ((g q).p, g q))) :=
    RnsContext.collectResults_ok fun q hq => (hg q hq).1
  have hn := n_lt_of_mod (h.range _ (List.head_mem h.ne_nil)).1 (h.range _ (List.head_mem h.ne_nil)).2 (h.ntt _ (List.head_mem h.ne_nil))
  have hlast : moduli.getLast? = some (moduli.getLastD 0) := by
    rw [List.getLastD_eq_getLast?, List.getLast?_eq_some_getLast h.ne_nil]; rfl
  have hlm : moduli.getLastD 0 ∈ moduli := by
    rw [List.getLastD_eq_getLast?, List.getLast?_eq_some_getLast h.ne_nil]; exact List.getLast_mem _
  have hmem : ∀ q ∈ moduli.dropLast, q ∈ moduli := fun q hq => List.mem_of_mem_dropLast hq
  have hinv : ((moduli.map fun q => ((g q).p, g q)).map (·.1)).dropLast.mapM (invLastOne (moduli.getLastD 0)) =
      some (moduli.dropLast.map fun q => (invVal q (moduli.getLastD 0), invVal q (moduli.getLastD 0) * 2 ^ 64 / q)) := by
    rw [List.map_map, ← List.map_dropLast, List.mapM_map]
    refine mapM_eq_some_map fun q hq => ?_
    obtain ⟨-, ⟨ω, ωi, hw⟩, h2, -⟩ := hg q (hmem q hq)
    have := invLastOne_eq hw.modulus hw.prime (a := moduli.getLastD 0) (by have := (h.range _ hlm).2; omega)
      (by rw [h2]; exact getLast_ne h.coprime h.prime hq)
    rw [h2] at this
    exact this
  refine ⟨{ moduli, q := moduli.map fun q => (g q).p, rns, ops := moduli.map g, degree := 2 ^ n, bitrev := tab (2 ^ n) (revBits n),
            invLast := moduli.dropLast.map fun q => invVal q (moduli.getLastD 0),
            invLastShoup := moduli.dropLast.map fun q => invVal q (moduli.getLastD 0) * 2 ^ 64 / q }, ?_, ?_, rfl⟩
  · unfold newLevel
    rw [if_neg, hr1]
    · simp only [Option.bind_eq_bind, Option.bind_some]
      rw [hcol, hlast]
      simp only [Option.bind_some]
      rw [hinv, Option.bind_some]
      simp only [List.map_map, Function.comp_def]
      congr 3
      unfold tab
      exact List.map_congr_left fun j _ => bitrev_shift (by omega)
    · rw [eq_pow_log2]
      have : 2 ^ 3 ≤ 2 ^ n := Nat.pow_le_pow_right (by norm_num) h.three_le
      push Not; exact ⟨rfl, by omega⟩
  · have hps : ∀ q ∈ moduli, (g q).p.p = q := fun q hq => (hg q hq).2.2.1
    have hmap : (moduli.map g).map (fun op => op.p.p) = moduli := by
      rw [List.map_map]; conv_rhs => rw [← List.map_id moduli]
      exact List.map_congr_left fun q hq => hps q hq
    refine ⟨rfl, h.three_le, hn, by simpa using h.ne_nil, ?_, ?_, ?_, hmap.symm, hr2, hr3, rfl, ?_, ?_, ?_, hr1⟩
    · intro op hop
      obtain ⟨q, hq, rfl⟩ := List.mem_map.1 hop
      exact (hg q hq).2.1
    · intro op hop
      obtain ⟨q, hq, rfl⟩ := List.mem_map.1 hop
      exact (hg q hq).2.2.2
    · simp only [List.map_map, Function.comp_def]
    · simp only [← List.map_dropLast, List.map_map, Function.comp_def]
      exact List.map_congr_left fun q hq => by rw [hps q (hmem q hq)]
    · simp only [← List.map_dropLast, List.map_map, Function.comp_def]
      exact List.map_congr_left fun q hq => by rw [hps q (hmem q hq)]
    · intro op hop
      obtain ⟨q, hq, rfl⟩ := List.mem_map.1 hop
      rw [hps q hq]; exact (hg q hq).1

theorem newLevel_inv {moduli : List Nat} {degree : Nat} (hb : b.OK) {l : CtxLevel} (h : newLevel b moduli degree = some (.ok l)) :
    ∃ n, degree = 2 ^ n ∧ Supported b moduli n ∧ l.WF b n ∧ l.moduli = moduli := by
  have h0 := h
  unfold newLevel at h
  split at h
  · cases h
  rename_i hdeg
  push Not at hdeg
  have h3 : 3 ≤ degree.log2 := by
    by_contra hc
    have : 2 ^ degree.log2 < 2 ^ 3 := Nat.pow_lt_pow_right (by norm_num) (by omega)
    omega
  obtain ⟨hdeg, h8⟩ := hdeg
  generalize degree.log2 = n at hdeg h3
  subst hdeg
  rcases hr : RnsContext.new b.cfg moduli with _ | e | rns
  · rw [hr] at h; cases h
  · rw [hr] at h; cases h
  rw [hr] at h
  simp only [Option.bind_eq_bind, Option.bind_some] at h
  rcases hc : RnsContext.collectResults (newOp b (2 ^ n)) moduli with _ | e | qops
  · rw [hc] at h; cases h
  · rw [hc] at h; cases h
  have hf := collectResults_inv hc
  obtain ⟨hrw, hrm, -, hrange⟩ := RnsContext.WF_of_new hr
  have hall : ∀ q ∈ moduli, (2 ≤ q ∧ q < 2 ^ 62) ∧ q.Prime ∧ q % (2 * 2 ^ n) = 1 ∧ ∃ j < 100, ¬ IsSquare (b.rng q j : ZMod q) := by
    intro q hq
    obtain ⟨i, hi, rfl⟩ := List.getElem_of_mem hq
    have := hf.get hi (by rw [← hf.length_eq]; exact hi)
    simp only [List.get_eq_getElem] at this
    exact newOp_inv hb h3 (m := (qops[i]'(by rw [← hf.length_eq]; exact hi)).1) (op := (qops[i]'(by rw [← hf.length_eq]; exact hi)).2) this
  have hs : Supported b moduli n :=
    ⟨h3, by rw [← hrm]; exact hrw.ne_nil, by rw [← hrm]; exact hrw.coprime, fun q hq => (hall q hq).1, fun q hq => (hall q hq).2.1,
      fun q hq => (hall q hq).2.2.1, fun q hq => (hall q hq).2.2.2⟩
  obtain ⟨l', h1, h2, h4⟩ := newLevel_ok hb hs
  rw [h0] at h1
  cases h1
  exact ⟨_, rfl, hs, h2, h4⟩

/-- What the constructor establishes for a chain. -/
structure WF (b : Build) (c : Context) (n : Nat) : Prop where
  ok : b.OK
  new : Context.new b c.moduli (2 ^ n) = some (.ok c)
  supported : Supported b c.moduli n
  level : c.toCtxLevel.WF b n

theorem supported_dropLast {moduli : List Nat} {n : Nat} (h : Supported b moduli n) (h2 : 2 ≤ moduli.length) : Supported b moduli.dropLast n := by
  have hmem : ∀ q ∈ moduli.dropLast, q ∈ moduli := fun q hq => List.mem_of_mem_dropLast hq
  refine ⟨h.three_le, ?_, ?_, fun q hq => h.range q (hmem q hq), fun q hq => h.prime q (hmem q hq), fun q hq => h.ntt q (hmem q hq),
    fun q hq => h.rng q (hmem q hq)⟩
  · intro he
    have := congrArg List.length he
    rw [List.length_dropLast, List.length_nil] at this; omega
  · intro i j hi hj hij
    rw [List.length_dropLast] at hi hj
    rw [List.getElem_dropLast, List.getElem_dropLast]
    exact h.coprime i j (by omega) (by omega) hij

theorem new_unfold (b : Build) (moduli : List Nat) (degree : Nat) : Context.new b moduli degree = (do
    match ← newLevel b moduli degree with
    | .error e => return .error e
    | .ok l =>
      if moduli.length ≥ 2 then
        match ← Context.new b moduli.dropLast degree with
        | .error e => return .error e
        | .ok n => return .ok { toCtxLevel := l, nexts := n.toCtxLevel :: n.nexts }
      else return .ok { toCtxLevel := l, nexts := [] }) := by
  conv_lhs => unfold Context.new
  simp only [dite_eq_ite]
  rfl

theorem new_ok (hb : b.OK) {moduli : List Nat} {n : Nat} (h : Supported b moduli n) :
    ∃ c, Context.new b moduli (2 ^ n) = some (.ok c) ∧ c.moduli = moduli ∧ c.WF b n ∧
      (2 ≤ moduli.length → ∃ c', c.next = some c' ∧ Context.new b moduli.dropLast (2 ^ n) = some (.ok c')) ∧
      (moduli.length < 2 → c.next = none) := by
  induction hlen : moduli.length using Nat.strong_induction_on generalizing moduli with
  | _ k ih =>
    obtain ⟨l, h1, h2, rfl⟩ := newLevel_ok hb h
    by_cases hk : 2 ≤ k
    · have hs := supported_dropLast h (by omega)
      obtain ⟨c', hc1, hc2, hc3, -⟩ := ih (k - 1) (by omega) hs (by rw [List.length_dropLast, hlen])
      have hn : Context.new b l.moduli (2 ^ n) = some (.ok { toCtxLevel := l, nexts := c'.toCtxLevel :: c'.nexts }) := by
        rw [new_unfold, h1]
        simp only [Option.bind_eq_bind, Option.bind_some, hlen]
        rw [if_pos hk, hc1]; rfl
      exact ⟨_, hn, rfl, ⟨hb, hn, h, h2⟩, fun _ => ⟨c', rfl, hc1⟩, fun hh => absurd hk (by omega)⟩
    · have hn : Context.new b l.moduli (2 ^ n) = some (.ok { toCtxLevel := l, nexts := [] }) := by
        rw [new_unfold, h1]
        simp only [Option.bind_eq_bind, Option.bind_some, hlen]
        rw [if_neg hk]; rfl
      exact ⟨_, hn, rfl, ⟨hb, hn, h, h2⟩, fun hh => absurd hh hk, fun _ => rfl⟩

theorem new_inv (hb : b.OK) {moduli : List Nat} {degree : Nat} {c : Context} (h : Context.new b moduli degree = some (.ok c)) :
    ∃ n, degree = 2 ^ n ∧ c.WF b n ∧ c.moduli = moduli := by
  rcases hl : newLevel b moduli degree with _ | e | l
  · rw [new_unfold, hl] at h; cases h
  · rw [new_unfold, hl] at h; cases h
  obtain ⟨n, rfl, hs, -, -⟩ := newLevel_inv hb hl
  obtain ⟨c', h1, h2, h3, -⟩ := new_ok hb hs
  rw [h] at h1
  cases h1
  exact ⟨n, rfl, h3, h2⟩

namespace WF
variable {c c' : Context} {n n' : Nat}

theorem eq_of_moduli (h : c.WF b n) (h' : c'.WF b n) (e : c.moduli = c'.moduli) : c = c' := by
  have h1 := h.new
  rw [e, h'.new] at h1
  cases h1; rfl

theorem next_some (h : c.WF b n) (h2 : 2 ≤ c.moduli.length) : ∃ c', c.next = some c' ∧ c'.WF b n ∧ c'.moduli = c.moduli.dropLast := by
  obtain ⟨c1, h1, h2', -, h4, -⟩ := new_ok h.ok h.supported
  obtain rfl : c = c1 := by rw [h.new] at h1; cases h1; rfl
  obtain ⟨c2, h5, h6⟩ := h4 h2
  obtain ⟨c3, h7, h8, h9, -⟩ := new_ok h.ok (supported_dropLast h.supported h2)
  rw [h7] at h6; cases h6
  exact ⟨_, h5, h9, h8⟩

theorem next_none (h : c.WF b n) (h2 : c.moduli.length < 2) : c.next = none := by
  obtain ⟨c1, h1, h2', -, -, h4⟩ := new_ok h.ok h.supported
  obtain rfl : c = c1 := by rw [h.new] at h1; cases h1; rfl
  exact h4 h2

theorem length_pos (h : c.WF b n) : 0 < c.moduli.length := List.length_pos_iff.2 h.supported.ne_nil

theorem descend_eq (h : c.WF b n) {i : Nat} (hi : i < c.moduli.length) :
    ∃ c', descend i c = some c' ∧ c'.WF b n ∧ c'.moduli = c.moduli.take (c.moduli.length - i) := by
  induction i generalizing c with
  | zero => exact ⟨c, rfl, h, by simp⟩
  | succ i ih =>
    obtain ⟨c1, h1, h2, h3⟩ := h.next_some (by omega)
    have hl : c1.moduli.length = c.moduli.length - 1 := by rw [h3, List.length_dropLast]
    obtain ⟨c2, h4, h5, h6⟩ := ih h2 (by omega)
    refine ⟨c2, by rw [descend, h1]; exact h4, h5, ?_⟩
    rw [h6, h3, List.length_dropLast, List.dropLast_eq_take, List.take_take]
    congr 1; omega

end WF

theorem niterationsLoop_shift (t : Context) (ls : List CtxLevel) (k : Nat) :
    niterationsLoop t ls k = (niterationsLoop t ls 0).map (· + k) := by
  induction ls generalizing k with
  | nil => rfl
  | cons l ls ih =>
    unfold niterationsLoop
    split
    · simp [Except.map, Nat.add_comm]
    · rw [ih (k + 1), ih (0 + 1)]
      rcases niterationsLoop t ls 0 with e | v
      · rfl
      · simp [Except.map]; omega

theorem niterationsTo_unfold (c t : Context) : c.niterationsTo t = if t = c then .ok 0 else
    match c.next with
    | none => .error .contextNotReachable
    | some c' => (c'.niterationsTo t).map (· + 1) := by
  unfold niterationsTo
  split
  · rfl
  unfold next
  rcases c with ⟨l, _ | ⟨l', ls⟩⟩
  · rfl
  · simp only [niterationsLoop]
    by_cases h : ({ toCtxLevel := l', nexts := ls } : Context) = t
    · rw [if_pos h, if_pos h.symm]; rfl
    · rw [if_neg h, if_neg (fun e => h e.symm), niterationsLoop_shift]

/-- The answer of `niterations_to` for any target. -/
theorem WF.niterationsTo_eq {c : Context} {n : Nat} (h : c.WF b n) (t : Context) :
    (∃ i < c.moduli.length, descend i c = some t ∧ c.niterationsTo t = .ok i) ∨
    ((∀ i < c.moduli.length, descend i c ≠ some t) ∧ c.niterationsTo t = .error .contextNotReachable) := by
  induction hlen : c.moduli.length generalizing c with
  | zero => have := h.length_pos; omega
  | succ k ih =>
    rw [niterationsTo_unfold]
    by_cases ht : t = c
    · exact Or.inl ⟨0, by omega, by rw [ht]; rfl, by rw [if_pos ht]⟩
    rw [if_neg ht]
    by_cases h2 : 2 ≤ c.moduli.length
    · obtain ⟨c1, h1, hw, h3⟩ := h.next_some h2
      have hl : c1.moduli.length = k := by rw [h3, List.length_dropLast, hlen]; omega
      rw [h1]
      have hd : ∀ i, descend (i + 1) c = descend i c1 := fun i => by rw [descend, h1]; rfl
      rcases ih hw hl with ⟨i, hi, e1, e2⟩ | ⟨e1, e2⟩
      · exact Or.inl ⟨i + 1, by omega, by rw [hd, e1], by simp only [e2]; rfl⟩
      · refine Or.inr ⟨fun i hi => ?_, by simp only [e2]; rfl⟩
        rcases i with _ | i
        · simp only [descend]; intro e; exact ht (Option.some.inj e).symm
        · rw [hd]; exact e1 i (by omega)
    · rw [h.next_none (by omega)]
      refine Or.inr ⟨fun i hi => ?_, rfl⟩
      obtain rfl : i = 0 := by omega
      simp only [descend]; intro e; exact ht (Option.some.inj e).symm

end Context
end Fhe
