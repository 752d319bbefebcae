import Verif.Lemmas.Tfhe
import Verif.Lemmas.RqCtx
/-!
# C73: the `tfhe-ntt` build computes what some native build computes
-/
namespace Fhe.Props
open NttOperator Spec

variable {cfg dbg : Bool} {p N : Nat} {m : Modulus} {rng : Nat → Nat} {tryNew : Nat → Nat → Option TfhePlan} {op : TfheOperator}

theorem tfhe_new_eq : TfheOperator.new tryNew dbg rng m N = (NttOperator.new dbg rng m N).map (Option.map fun native => ⟨tryNew N m.p, native⟩) := by
  unfold TfheOperator.new
  cases NttOperator.new dbg rng m N with
  | none => rfl
  | some o => cases o <;> rfl

/-- C73: an operator of a `tfhe-ntt` build computes the transforms of the native operator built from some sequence of drawn
values, whatever root of unity the plan of the external crate uses. -/
theorem C73_refines (hm : Modulus.new cfg p = some (.ok m)) (hr : ∀ i, rng i < p) (hplan : ∀ plan, tryNew N p = some plan → ∃ ψ, PlanFor p N ψ plan)
    (hop : TfheOperator.new tryNew dbg rng m N = some (some op)) :
    ∃ rng' : Nat → Nat, (∀ i, rng' i < p) ∧ ∃ op', NttOperator.new dbg rng' m N = some (some op') ∧ SameTransforms p N op op' := by
  obtain ⟨hw, rfl, -⟩ := Modulus.WF_of_new hm
  rw [tfhe_new_eq] at hop
  obtain ⟨native, h1, rfl⟩ : ∃ native, NttOperator.new dbg rng m N = some (some native) ∧ (⟨tryNew N m.p, native⟩ : TfheOperator) = op := by
    cases h : NttOperator.new dbg rng m N with
    | none => rw [h] at hop; cases hop
    | some o =>
      cases o with
      | none => rw [h] at hop; simp at hop
      | some native => rw [h] at hop; exact ⟨native, rfl, by simpa using hop⟩
  obtain ⟨n, ω, ωi, h, hp, rfl⟩ := WF_of_new hw hr h1
  cases ht : tryNew (2 ^ n) m.p with
  | none =>
    refine ⟨rng, hr, native, h1, ?_⟩
    rw [← hp]
    exact sameTransforms_native h
  | some plan =>
    obtain ⟨ψ, hψ⟩ := hplan plan ht
    have hsup : m.p % (2 * 2 ^ n) = 1 ∧ m.p.Prime := by
      by_contra hc
      rw [new_unsupported h.three_le h.n_lt.le hc] at h1
      simp at h1
    obtain ⟨v, hv, op', ω', ωi', e1, e2, rfl, rfl⟩ := exists_native (dbg := dbg) hw h.three_le h.n_lt.le hsup.1 hsup.2 hψ.primitive
    exact ⟨fun _ => v, fun _ => hv, op', e1, sameTransforms_plan e2 hψ native⟩

/-- C73: for each ring dimension the whole `tfhe-ntt` build is matched by one native build: for every modulus the constructor
panics, declines or succeeds in both, and when it succeeds the transforms are the same. -/
theorem C73_build {b : Build} (hb : b.OK) (N : Nat) (hplan : ∀ p plan, tryNew N p = some plan → ∃ ψ, PlanFor p N ψ plan) :
    ∃ b' : Build, b'.OK ∧ b'.cfg = b.cfg ∧ b'.dbg = b.dbg ∧ ∀ p m, Modulus.new b.cfg p = some (.ok m) →
      Option.Rel (Option.Rel (SameTransforms p N)) (TfheOperator.new tryNew b.dbg (b.rng p) m N) (NttOperator.new b.dbg (b'.rng p) m N) := by
  have key : ∀ p, ∃ rng' : Nat → Nat, (∀ i, 0 < p → rng' i < p) ∧ ∀ m, Modulus.new b.cfg p = some (.ok m) →
      Option.Rel (Option.Rel (SameTransforms p N)) (TfheOperator.new tryNew b.dbg (b.rng p) m N) (NttOperator.new b.dbg rng' m N) := by
    intro p
    by_cases hc : ∃ m op, Modulus.new b.cfg p = some (.ok m) ∧ TfheOperator.new tryNew b.dbg (b.rng p) m N = some (some op)
    · obtain ⟨m, op, hm, hop⟩ := hc
      obtain ⟨hw, hp, -⟩ := Modulus.WF_of_new hm
      have hpos : 0 < p := hp ▸ hw.pos
      obtain ⟨rng', h1, op', h2, h3⟩ := C73_refines hm (fun i => hb p i hpos) (hplan p) hop
      refine ⟨rng', fun i _ => h1 i, fun m' hm' => ?_⟩
      rw [hm] at hm'
      obtain rfl : m = m' := by simpa using hm'
      rw [hop, h2]
      exact .some (.some h3)
    · refine ⟨b.rng p, fun i h => hb p i h, fun m hm => ?_⟩
      rw [tfhe_new_eq]
      cases h : NttOperator.new b.dbg (b.rng p) m N with
      | none => exact .none
      | some o =>
        cases o with
        | none => exact .some .none
        | some native => exact absurd ⟨m, _, hm, by rw [tfhe_new_eq, h]; rfl⟩ hc
  choose rng' h1 h2 using key
  exact ⟨⟨b.cfg, b.dbg, rng'⟩, fun p i h => h1 p i h, rfl, rfl, fun p m hm => h2 p m hm⟩

/-- C73: within one program, operators that compare equal compute the same: they are equal altogether. -/
theorem C73_equality {rng' : Nat → Nat} {cfg' : Bool} {p' N' : Nat} {m' : Modulus} {op' : TfheOperator} (hm : Modulus.new cfg p = some (.ok m)) (hr : ∀ i, rng i < p)
    (hm' : Modulus.new cfg' p' = some (.ok m')) (hr' : ∀ i, rng' i < p')
    (hop : TfheOperator.new tryNew dbg rng m N = some (some op)) (hop' : TfheOperator.new tryNew dbg rng' m' N' = some (some op')) (he : op.eq op' = true) : op = op' := by
  obtain ⟨hw, rfl, -⟩ := Modulus.WF_of_new hm
  obtain ⟨hw', rfl, -⟩ := Modulus.WF_of_new hm'
  have inv : ∀ {m : Modulus} {rng : Nat → Nat} {N : Nat} {op : TfheOperator}, TfheOperator.new tryNew dbg rng m N = some (some op) →
      NttOperator.new dbg rng m N = some (some op.native) ∧ op.plan = tryNew N m.p := by
    intro m rng N op hop
    rw [tfhe_new_eq] at hop
    cases h : NttOperator.new dbg rng m N with
    | none => rw [h] at hop; cases hop
    | some o =>
      cases o with
      | none => rw [h] at hop; simp at hop
      | some native =>
        rw [h] at hop
        obtain rfl : (⟨tryNew N m.p, native⟩ : TfheOperator) = op := by simpa using hop
        exact ⟨rfl, rfl⟩
  obtain ⟨h1, h2⟩ := inv hop
  obtain ⟨h1', h2'⟩ := inv hop'
  have hn : op.native = op'.native := of_decide_eq_true he
  obtain ⟨n, ω, ωi, e1, e2, e3⟩ := WF_of_new hw hr h1
  obtain ⟨n', ω', ωi', e1', e2', e3'⟩ := WF_of_new hw' hr' h1'
  have hmm : m = m' := by rw [← e2, ← e2', hn]
  have hNN : N = N' := by rw [e3, e3', ← e1.size, ← e1'.size, hn]
  have hp : op.plan = op'.plan := by rw [h2, h2', hmm, hNN]
  cases op; cases op'
  simp only at hn hp
  rw [hn, hp]

/-- A plan made from a native operator. -/
def planOf (op : NttOperator) : TfhePlan := { size := op.size, fwd := op.forward, inv := op.backward, normalize := some }

theorem planFor_planOf {op : NttOperator} (hm : Modulus.new cfg p = some (.ok m)) (hr : ∀ i, rng i < p) (hop : NttOperator.new dbg rng m N = some (some op)) : ∃ ψ, PlanFor p N ψ (planOf op) := by
  obtain ⟨hw, rfl, -⟩ := Modulus.WF_of_new hm
  obtain ⟨n, ω, ωi, h, rfl, rfl⟩ := WF_of_new hw hr hop
  refine ⟨ω, h.size, h.isPrimitiveRoot, fun a hl ha => forward_spec h hl (fun x hx => by have := ha x hx; omega), fun a r hl ha hf => ?_⟩
  have := (C15_inverse hm hr hop hl ha).1
  rw [show (planOf op).fwd a = op.forward a from rfl] at hf
  rw [hf] at this
  show (op.backward r).bind some = some a
  rw [Option.bind_fun_some]
  exact this

/-- Modulo 17, in dimension 8, the values drawn decide the transform. -/
theorem roots_differ : ∃ m op op', Modulus.new true 17 = some (.ok m) ∧ NttOperator.new true (fun _ => 3) m 8 = some (some op) ∧
    NttOperator.new true (fun _ => 5) m 8 = some (some op') ∧ op.forward [0, 1, 0, 0, 0, 0, 0, 0] ≠ op'.forward [0, 1, 0, 0, 0, 0, 0, 0] := by
  obtain ⟨m, hm, -, -⟩ := Modulus.new_eq_ok (cfg := true) (p := 17) (by norm_num)
  obtain ⟨hw, hp, -⟩ := Modulus.WF_of_new hm
  have aux : ∀ v : Nat, v < 17 → ¬ IsSquare (v : ZMod 17) → ∃ op r, NttOperator.new true (fun _ => v) m 8 = some (some op) ∧
      op.forward [0, 1, 0, 0, 0, 0, 0, 0] = some r ∧ r.getD 0 0 = v := by
    intro v hv hs
    have hmod : m.p % (2 * 2 ^ 3) = 1 := by rw [hp]; norm_num
    have hprime : m.p.Prime := by rw [hp]; norm_num
    rcases new_supported_root (dbg := true) (rng := fun _ => v) hw (le_refl 3) (by norm_num) hmod hprime (fun _ => by rw [hp]; exact hv) with ⟨-, op, ω, ωi, h1, h2, h4, j, h5⟩ | ⟨h, -⟩
    · have hω : ω = v := by rw [h5, hp, show (17 - 1) / (2 * 2 ^ 3) = 1 from rfl, pow_one, Nat.mod_eq_of_lt hv]
      have hp17 : op.p.p = 17 := by rw [h4, hp]
      obtain ⟨r, e1, e2, e3⟩ := forward_spec h2 (a := [0, 1, 0, 0, 0, 0, 0, 0]) rfl (by rw [hp17]; decide)
      refine ⟨op, r, h1, e1, ?_⟩
      have h0 : 0 < r.length := by rw [e2]; norm_num
      obtain ⟨g1, g2⟩ := e3 0 h0
      rw [List.getD_eq_getElem?_getD, List.getElem?_eq_getElem h0, Option.getD_some]
      have hev : polyEval [0, 1, 0, 0, 0, 0, 0, 0] ((ω : ZMod op.p.p) ^ (2 * bitRev (2 ^ 3).log2 0 + 1)) = (v : ZMod op.p.p) := by
        rw [hω]
        simp [polyEval, bitRev, Finset.sum_range_succ]
      rw [hev, ZMod.natCast_eq_natCast_iff', Nat.mod_eq_of_lt g1, Nat.mod_eq_of_lt (by rw [hp17]; exact hv)] at g2
      exact g2
    · exact absurd (by rw [hp] at h; exact h 0 (by norm_num)) hs
  obtain ⟨op, r, h1, h2, h3⟩ := aux 3 (by norm_num) (by decide)
  obtain ⟨op', r', h1', h2', h3'⟩ := aux 5 (by norm_num) (by decide)
  refine ⟨m, op, op', hm, h1, h1', fun h => ?_⟩
  rw [h2, h2'] at h
  obtain rfl : r = r' := by simpa using h
  rw [h3] at h3'
  omega

/-- C73: the plan need not compute what the native operator stored next to it computes (the comment in `PartialEq` says it
does): an operator built with an admissible plan and the transform of its own native operator differ on some input. -/
theorem C73_not_native : ∃ (tryNew : Nat → Nat → Option TfhePlan) (m : Modulus) (op : TfheOperator) (a : List Nat), (∀ plan, tryNew 8 17 = some plan → ∃ ψ, PlanFor 17 8 ψ plan) ∧
    Modulus.new true 17 = some (.ok m) ∧ TfheOperator.new tryNew true (fun _ => 3) m 8 = some (some op) ∧ a.length = 8 ∧ (∀ x ∈ a, x < 17) ∧ op.forward a ≠ op.native.forward a := by
  obtain ⟨m, op, op', hm, h1, h1', hd⟩ := roots_differ
  refine ⟨fun _ _ => some (planOf op'), m, ⟨some (planOf op'), op⟩, [0, 1, 0, 0, 0, 0, 0, 0], fun plan hp => ?_, hm, by rw [tfhe_new_eq, h1]; rfl, rfl, by decide, fun h => hd h.symm⟩
  obtain rfl : planOf op' = plan := by simpa using hp
  exact planFor_planOf hm (fun _ => by norm_num) h1'

/-- Plans that satisfy the contract exist for moduli and dimensions of any size: the hypotheses of `C73_build` can be met with
every plan present. -/
example (b : Build) (hb : b.OK) (N : Nat) : ∃ tryNew : Nat → Nat → Option TfhePlan, (∀ p plan, tryNew N p = some plan → ∃ ψ, PlanFor p N ψ plan) ∧
    ∀ p m op, Modulus.new b.cfg p = some (.ok m) → NttOperator.new b.dbg (b.rng p) m N = some (some op) → (tryNew N p).isSome := by
  classical
  refine ⟨fun N p => if h : ∃ op m, Modulus.new b.cfg p = some (.ok m) ∧ NttOperator.new b.dbg (b.rng p) m N = some (some op) then some (planOf h.choose) else none, fun p plan hp => ?_, fun p m op hm hop => ?_⟩
  · by_cases h : ∃ op m, Modulus.new b.cfg p = some (.ok m) ∧ NttOperator.new b.dbg (b.rng p) m N = some (some op)
    · simp only [h, dif_pos, Option.some.injEq] at hp
      subst hp
      obtain ⟨m, hm, hop⟩ := h.choose_spec
      obtain ⟨hw, hp', -⟩ := Modulus.WF_of_new hm
      exact planFor_planOf hm (fun i => hb p i (hp' ▸ hw.pos)) hop
    · simp only [h, dite_false] at hp; cases hp
  · simp only [show ∃ op m, Modulus.new b.cfg p = some (.ok m) ∧ NttOperator.new b.dbg (b.rng p) m N = some (some op) from ⟨op, m, hm, hop⟩, dif_pos, Option.isSome_some]

end Fhe.Props
