import Verif.Lemmas.TimedKeys
import Verif.Lemmas.BfvPublic
import Verif.Lemmas.BfvSer
/-!
# From pairs of runs to one trace
-/
namespace Fhe.Release

theorem ConstantTime.of {ι α : Type} {run : ι → Timed α} {value : ι → Option α} {adm : ι → Prop} {R : α → α → Prop}
    (ha : ∀ x, Agrees (value x) (run x)) (hi : ∀ x x', adm x → adm x' → Indist R (run x) (run x')) : ConstantTime run value adm := by
  by_cases h : ∃ x, adm x
  · obtain ⟨x0, h0⟩ := h
    refine ⟨(run x0).trace, fun x hx y hy => ?_⟩
    have h1 := ha x y hy
    have h2 := (hi x x0 hx h0).1
    rcases hr : run x with ⟨r, t⟩
    rw [hr] at h1 h2
    simp only at h1 h2
    rw [h1, h2]
  · exact ⟨[], fun x hx => absurd ⟨x, hx⟩ h⟩

theorem RevealsOnly.of {ι α κ : Type} {run : ι → Timed α} {value : ι → Option α} {adm : ι → Prop} {f : ι → κ}
    (ha : ∀ x, Agrees (value x) (run x))
    (hi : ∀ x x' y y', adm x → adm x' → value x = some y → value x' = some y' → f x = f x' → (run x).trace = (run x').trace) :
    RevealsOnly run value adm f := by
  classical
  refine ⟨fun k => if h : ∃ x, adm x ∧ (∃ y, value x = some y) ∧ f x = k then (run h.choose).trace else [], fun x hx y hy => ?_⟩
  have h : ∃ x', adm x' ∧ (∃ y, value x' = some y) ∧ f x' = f x := ⟨x, hx, ⟨y, hy⟩, rfl⟩
  simp only [dif_pos h]
  obtain ⟨ha', ⟨y', hy'⟩, hf⟩ := h.choose_spec
  have h1 := ha x y hy
  have h2 := hi x h.choose y y' hx ha' hy hy' hf.symm
  rcases hr : run x with ⟨r, t⟩
  rw [hr] at h1 h2
  simp only at h1 h2
  rw [h1, h2]

theorem SameLen.common {α : Type} {a b c : List α} (h : SameLen a b) (h' : SameLen a c) : SameLen b c := h.symm.trans h'
theorem SameShape.common : {a b c : List (List Nat)} → SameShape a b → SameShape a c → SameShape b c
  | _, _, _, .nil, .nil => .nil
  | _, _, _, .cons h t, .cons h' t' => .cons (h.common h') (SameShape.common t t')
theorem SamePublic.common {r : Rep} {a b c : Poly r} (h : SamePublic a b) (h' : SamePublic a c) : SamePublic b c where
  ctx := h.ctx.symm.trans h'.ctx
  hasLazy := h.hasLazy.symm.trans h'.hasLazy
  vt := h.vt.symm.trans h'.vt
  coeffs := h.coeffs.common h'.coeffs
  shoup := by
    have h1 := h.shoup
    have h2 := h'.shoup
    revert h1 h2
    cases a.shoup <;> cases b.shoup <;> cases c.shoup <;> intro h1 h2 <;> cases h1 <;> cases h2
    · exact .none
    · rename_i h1 h2; exact .some (SameShape.common h1 h2)
  isPublic hv := by rw [← h.isPublic (h.vt.trans hv), h'.isPublic (h.vt.trans hv)]
theorem SamePlain.common {a b c : Plaintext} (h : SamePlain a b) (h' : SamePlain a c) : SamePlain b c :=
  ⟨h.par.symm.trans h'.par, h.encoding.symm.trans h'.encoding, h.poly.common h'.poly⟩
theorem SamePlain.refl (a : Plaintext) : SamePlain a a := ⟨rfl, rfl, SamePublic.refl _⟩
theorem SameGenerator.common {a b c : RelinKeyGenerator} (h : SameGenerator a b) (h' : SameGenerator a c) : SameGenerator b c :=
  ⟨⟨h.sk.par.symm.trans h'.sk.par, h.sk.coeffs.common h'.sk.coeffs⟩, h.crp.symm.trans h'.crp, h.u.common h'.u⟩

theorem ConstantTime.of_values {ι α : Type} {run : ι → Timed α} {value : ι → Option α} {adm : ι → Prop} (ha : ∀ x, Agrees (value x) (run x))
    (hi : ∀ x x' y y', adm x → adm x' → value x = some y → value x' = some y' → (run x).trace = (run x').trace) : ConstantTime run value adm := by
  obtain ⟨tr, h⟩ := RevealsOnly.of (f := fun _ => ()) ha fun x x' y y' h1 h2 h3 h4 _ => hi x x' y y' h1 h2 h3 h4
  exact ⟨tr (), h⟩

theorem mapM_mem {α β : Type} {f : α → Res β} : {l : List α} → {r : List β} → l.mapM f = Res.ok r → ∀ y ∈ r, ∃ x, f x = Res.ok y
  | [], r, h, y, hy => by
    rw [List.mapM_nil, Res.pure_eq, Res.ok_inj] at h
    subst h; simp at hy
  | a :: l, r, h, y, hy => by
    rw [List.mapM_cons, Res.bind_eq_ok] at h
    obtain ⟨z, h1, h⟩ := h
    rw [Res.bind_eq_ok] at h
    obtain ⟨zs, h2, h⟩ := h
    rw [Res.pure_eq, Res.ok_inj] at h
    subst h
    rcases List.mem_cons.1 hy with rfl | hy
    · exact ⟨a, h1⟩
    · exact mapM_mem h2 y hy

/-- The parameters and the context of an encoded message. -/
theorem encoded {v : List Nat} {e : Encoding} {par : Par} {vt : Bool} {pt : Plaintext} (h : Plaintext.tryEncodeU64 v e par vt = Res.ok pt) :
    pt.par = par ∧ par.contextAtLevel e.level = Res.ok pt.polyNtt.ctx := by
  unfold Plaintext.tryEncodeU64 at h
  split at h
  · exact absurd h (Res.err_ne_ok)
  rw [Res.bind_eq_ok] at h
  obtain ⟨pts, h1, h2⟩ := h
  rw [Res.lift_eq_ok] at h2
  have hm := List.mem_of_getElem? h2
  unfold PlaintextVec.tryEncodeU64 PlaintextVec.tryEncodeWith at h1
  split at h1
  · exact absurd h1 (Res.err_ne_ok)
  rw [Res.bind_eq_ok] at h1
  obtain ⟨ctx, hc, h1⟩ := h1
  rw [Res.bind_eq_ok] at h1
  obtain ⟨-, -, h1⟩ := h1
  obtain ⟨k, hk⟩ := mapM_mem h1 pt hm
  rw [Res.bind_eq_ok] at hk
  obtain ⟨ch, -, hk⟩ := hk
  rw [Res.bind_eq_ok] at hk
  obtain ⟨p, hp, hk⟩ := hk
  rw [Res.pure_eq, Res.ok_inj] at hk
  subst hk
  refine ⟨rfl, ?_⟩
  unfold PlaintextVec.encodeU64Chunk at hp
  rw [Res.bind_eq_ok] at hp
  obtain ⟨co, -, hp⟩ := hp
  rw [Res.bind_eq_ok] at hp
  obtain ⟨q, hq, hp⟩ := hp
  rw [Res.math_eq_ok] at hq
  rw [Res.lift_eq_ok] at hp
  have h1 := (Poly.tryFromU64_ctx hq).1
  unfold Poly.intoNtt at hp
  obtain ⟨f, hf, hp⟩ := Option.bind_eq_some_iff.1 hp
  show _ = Res.ok p.ctx
  rw [(Poly.fromParts_ctx hp).1, (Poly.nttForward_ctx hf).1, h1, hc]

open ParamsBuilder in
/-- With a plaintext modulus below the first ciphertext modulus, every level is word sized. -/
theorem wordSized {b : Build} {n : Nat} {par : Par} (hw : ParWF b n par.toBfvParameters) {q : Nat} (hq : par.moduli.head? = some q) (ht : par.plaintext.value < q)
    {i : Nat} {c : Context} (hc : par.contextAtLevel i = Res.ok c) : WordSized par c := by
  obtain ⟨l, ha, rfl⟩ := AtLevel.ofContext hw hc
  have hlt := ha.lt
  have hh : l.ctx.moduli.head? = some q := by
    rw [ha.moduli, List.head?_take, if_neg (by omega), hq]
  rcases hw.plaintext with ⟨m, h1, -, h3⟩ | ⟨h1, -⟩
  · refine ⟨m, h3, ?_⟩
    obtain ⟨-, hp, -⟩ := Modulus.WF_of_new h1
    simp [Plaintext.fitsFirst, hh, hp, ht]
  · have : q < 2 ^ 62 := (hw.moduli.range q (List.mem_of_mem_head? hq)).2
    omega

theorem small_ne {par : Par} {c : Context} (h : WordSized par c) : par.plaintext.small ≠ none := by
  obtain ⟨m, h, -⟩ := h
  rw [h]; simp

/-- Encoding followed by an operation on the plaintext. -/
theorem encode_bind {α : Type} {v v' : List Nat} (hv : SameLen v v') (e : Encoding) (par : Par) {f f' : Plaintext → TRes α} {F : Plaintext → Res α}
    (hw : ∀ c, par.contextAtLevel e.level = Res.ok c → WordSized par c)
    (hi : ∀ pt pt', SamePlain pt pt' → WordSized pt.par pt.polyNtt.ctx → TIndist AnyWords (f pt) (f' pt')) {y : Except FheError α}
    (hy : (Plaintext.tryEncodeU64 v e par false >>= F).run = some y) :
    (tryEncodeU64 v e par false >>= f).run.trace = (tryEncodeU64 v' e par false >>= f').run.trace := by
  refine (TIndist.bind' (S := AnyWords) (tryEncodeU64_indist hv e par) fun a a' hr h1 _ => hi a a' hr ?_).1
  have hm : Plaintext.tryEncodeU64 v e par false = Res.ok a := by
    have ha := tryEncodeU64_agrees v e par false
    rcases hz : (Plaintext.tryEncodeU64 v e par false).run with _ | z
    · change ((Plaintext.tryEncodeU64 v e par false).run >>= fun x => ExceptT.bindCont F x) = some y at hy
      rw [hz] at hy
      simp at hy
    · have h2 := ha z hz
      rw [h1, Option.some.injEq] at h2
      subst h2
      exact hz
  obtain ⟨h2, h3⟩ := encoded hm
  rw [h2]
  exact hw _ h3

end Fhe.Release
