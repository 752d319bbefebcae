import Verif.Lemmas.BfvPublic
import Verif.Lemmas.BfvEvalKey
import Verif.Model.BfvMultiplicator
import Verif.Model.BfvDot
import Verif.Model.BfvRgsw
import Verif.Spec.Permission
/-!
# Permission to compute in variable time: lemmas
-/
namespace Fhe

theorem map_of_mapM {α β γ : Type} {f : α → Panics β} {φ : β → γ} {ψ : α → γ} :
    ∀ {l : List α} {l' : List β}, l.mapM f = some l' → (∀ a ∈ l, ∀ b, f a = some b → φ b = ψ a) → l'.map φ = l.map ψ
  | [], l', h, _ => by
    obtain rfl : [] = l' := by simpa using h
    rfl
  | a :: l, l', h, hf => by
    rw [List.mapM_cons, Option.bind_eq_bind, Option.bind_eq_some_iff] at h
    obtain ⟨b, hb, h⟩ := h
    rw [Option.bind_eq_bind, Option.bind_eq_some_iff] at h
    obtain ⟨bs, hbs, h⟩ := h
    obtain rfl : b :: bs = l' := by simpa using h
    rw [List.map_cons, List.map_cons, hf a (by simp) b hb, map_of_mapM hbs fun a ha => hf a (by simp [ha])]

theorem Res.map_of_mapM {α β γ : Type} {f : α → Res β} {φ : β → γ} {ψ : α → γ} :
    ∀ {l : List α} {l' : List β}, l.mapM f = Res.ok l' → (∀ a ∈ l, ∀ b, f a = Res.ok b → φ b = ψ a) → l'.map φ = l.map ψ
  | [], l', h, _ => by
    rw [List.mapM_nil, Res.pure_eq, Res.ok_inj] at h
    rw [← h]; rfl
  | a :: l, l', h, hf => by
    rw [List.mapM_cons] at h
    obtain ⟨b, hb, h⟩ := Res.bind_eq_ok.1 h
    obtain ⟨bs, hbs, h⟩ := Res.bind_eq_ok.1 h
    rw [Res.pure_eq, Res.ok_inj] at h
    rw [← h, List.map_cons, List.map_cons, hf a (by simp) b hb, Res.map_of_mapM hbs fun a ha => hf a (by simp [ha])]

theorem map_const_true {α : Type} {f : α → Bool} {l : List α} (h : l.map f = l.map fun _ => true) : l.all f = true := by
  rw [List.all_eq_true]
  intro a ha
  induction l with
  | nil => cases ha
  | cons x xs ih =>
    simp only [List.map_cons, List.cons.injEq] at h
    rcases List.mem_cons.1 ha with rfl | ha
    · exact h.1
    · exact ih h.2 ha

namespace Poly
variable {r : Rep}

theorem addAssign_vt {a p q : Poly r} (h : a.addAssign p = some q) : q.vt = (a.vt && p.vt) := by
  unfold addAssign at h
  simp only [Option.bind_eq_bind, Option.bind_eq_some_iff] at h
  obtain ⟨_, -, _, -, _, -, h⟩ := h
  obtain rfl : _ = q := by simpa using h
  rfl

theorem subAssign_vt {a p q : Poly r} (h : a.subAssign p = some q) : q.vt = (a.vt && p.vt) := by
  unfold subAssign at h
  simp only [Option.bind_eq_bind, Option.bind_eq_some_iff] at h
  obtain ⟨_, -, _, -, _, -, h⟩ := h
  obtain rfl : _ = q := by simpa using h
  rfl

theorem mulAssign_vt {a p q : Poly .ntt} (h : a.mulAssign p = some q) : q.vt = (a.vt && p.vt) := by
  unfold mulAssign at h
  simp only [Option.bind_eq_bind, Option.bind_eq_some_iff] at h
  obtain ⟨_, -, _, -, _, -, _, -, h⟩ := h
  obtain rfl : _ = q := by simpa using h
  rfl

theorem mulAssignShoup_vt {a q : Poly .ntt} {p : Poly .nttShoup} (h : a.mulAssignShoup p = some q) : q.vt = (a.vt && p.vt) := by
  unfold mulAssignShoup at h
  simp only [Option.bind_eq_bind, Option.bind_eq_some_iff] at h
  obtain ⟨_, -, _, -, _, -, _, -, h⟩ := h
  obtain rfl : _ = q := by simpa using h
  rfl

theorem neg_vt {a q : Poly r} (h : a.neg = some q) : q.vt = a.vt := by
  unfold neg at h
  simp only [Option.bind_eq_bind, Option.bind_eq_some_iff] at h
  obtain ⟨_, -, _, -, h⟩ := h
  obtain rfl : _ = q := by simpa using h
  rfl

theorem nttBackward_vt {p q : Poly r} (h : p.nttBackward = some q) : q.vt = p.vt := by
  unfold nttBackward at h
  simp only [Option.bind_eq_bind, Option.bind_eq_some_iff] at h
  obtain ⟨_, -, h⟩ := h
  obtain rfl : _ = q := by simpa using h
  rfl

theorem nttToPowerBasis_vt {p : Poly .ntt} {q : Poly .powerBasis} (h : p.nttToPowerBasis = some q) : q.vt = p.vt := by
  unfold nttToPowerBasis at h
  rw [Option.bind_eq_bind, Option.bind_eq_some_iff] at h
  obtain ⟨x, hx, h⟩ := h
  rw [(fromParts_ctx h).2, nttBackward_vt hx]

theorem intoNtt_vt {p : Poly .powerBasis} {q : Poly .ntt} (h : p.intoNtt = some q) : q.vt = p.vt := (ofPowerBasis_ctx (r := .ntt) h).2
theorem intoNttShoup_vt {p : Poly .powerBasis} {q : Poly .nttShoup} (h : p.intoNttShoup = some q) : q.vt = p.vt := (ofPowerBasis_ctx (r := .nttShoup) h).2

theorem constantNttLazyVt_vt {v : List Nat} {c : Context} {q : Poly .ntt} (h : constantNttLazyVt v c = some q) : q.vt = true := by
  unfold constantNttLazyVt at h
  simp only [Option.bind_eq_bind, Option.bind_eq_some_iff] at h
  obtain ⟨_, -, h⟩ := h
  obtain rfl : _ = q := by simpa using h
  rfl

theorem substitute_vt {p q : Poly .ntt} {e : SubstExponent} (h : p.substitute e = some q) : q.vt = p.vt := by
  unfold substitute at h
  simp only [Option.bind_eq_bind, Option.bind_eq_some_iff] at h
  obtain ⟨_, -, h⟩ := h
  obtain rfl : _ = q := by simpa using h
  rfl

theorem switchDown_vt {p q : Poly .powerBasis} (h : p.switchDown = some (.ok q)) : q.vt = p.vt := by
  unfold switchDown at h
  split at h
  · cases h
  · simp only [Option.bind_eq_bind, Option.bind_eq_some_iff] at h
    obtain ⟨_, -, _, -, _, -, _, -, _, -, h⟩ := h
    obtain rfl : _ = q := by simpa using h
    rfl

theorem switchDownLoop_vt : ∀ {n : Nat} {p q : Poly .powerBasis}, switchDownLoop n p = some (.ok q) → q.vt = p.vt
  | 0, p, q, h => by
    obtain rfl : p = q := by simpa [switchDownLoop] using h
    rfl
  | n + 1, p, q, h => by
    rw [switchDownLoop, Option.bind_eq_bind, Option.bind_eq_some_iff] at h
    obtain ⟨x, hx, h⟩ := h
    cases x with
    | error e => cases h
    | ok x => rw [switchDownLoop_vt h, switchDown_vt hx]

theorem switchDownTo_vt {p q : Poly .powerBasis} {c : Context} (h : p.switchDownTo c = some (.ok q)) : q.vt = p.vt := by
  unfold switchDownTo at h
  split at h
  · cases h
  · rw [Option.bind_eq_bind, Option.bind_eq_some_iff] at h
    obtain ⟨x, hx, h⟩ := h
    cases x with
    | error e => cases h
    | ok x =>
      dsimp only at h
      split at h
      · cases h
      · obtain rfl : x = q := by simpa using h
        exact switchDownLoop_vt hx

theorem switchDownNtt_vt {p q : Poly .ntt} {c : Context} (h : p.switchDownNtt c = Res.ok q) : q.vt = p.vt := by
  unfold switchDownNtt at h
  obtain ⟨x, hx, h⟩ := Res.bind_eq_ok.1 h
  obtain ⟨y, hy, h⟩ := Res.bind_eq_ok.1 h
  rw [intoNtt_vt (Res.lift_eq_ok.1 h), switchDownTo_vt (Res.math_eq_ok.1 hy), nttToPowerBasis_vt (Res.lift_eq_ok.1 hx)]

theorem tryFromI64_vt {v : List Int} {c : Context} {vt : Bool} {p : Poly .powerBasis} (h : tryFromI64 v c vt = some (.ok p)) : p.vt = vt := by
  unfold tryFromI64 at h
  split at h
  · simp only [Option.bind_eq_bind, Option.bind_eq_some_iff] at h
    obtain ⟨_, -, h⟩ := h
    obtain rfl : _ = p := by simpa using h
    rfl
  · cases h

theorem tryFromBigUint_vt {v : List Nat} {c : Context} {vt : Bool} {p : Poly .powerBasis} (h : tryFromBigUint v c vt = some (.ok p)) : p.vt = vt := by
  unfold tryFromBigUint at h
  split at h
  · cases h
  · simp only [Option.bind_eq_bind, Option.bind_eq_some_iff] at h
    obtain ⟨_, -, _, -, h⟩ := h
    obtain rfl : _ = p := by simpa using h
    rfl

theorem dotProduct_vt {p q : List (Poly .ntt)} {x : Poly .ntt} (h : dotProduct p q = some (.ok x)) : x.vt = (p.zip q).all fun y => y.1.vt && y.2.vt := by
  unfold dotProduct at h
  split at h
  · cases h
  · split at h
    · cases h
    · split at h
      · cases h
      · split at h
        · cases h
        · simp only [Option.bind_eq_bind, Option.bind_eq_some_iff] at h
          obtain ⟨_, -, _, -, _, -, _, -, h⟩ := h
          obtain rfl : _ = x := by simpa using h
          rfl

end Poly

theorem Scaler.scale_vt {r : Rep} {s : Scaler} {p q : Poly r} (h : s.scale p = some (.ok q)) : q.vt = p.vt := by
  unfold Scaler.scale at h
  split at h
  · cases h
  · split at h
    · simp only [Option.bind_eq_bind, Option.bind_eq_some_iff] at h
      obtain ⟨_, -, _, -, _, -, _, -, _, -, h⟩ := h
      obtain rfl : _ = q := by simpa using h
      rfl
    · obtain rfl : _ = q := by simpa using h
      rfl

theorem unwrapMath_eq_some {α : Type} {x : Panics (Except MathError α)} {a : α} (h : unwrapMath x = some a) : x = some (.ok a) := by
  unfold unwrapMath at h
  cases x with
  | none => cases h
  | some x =>
    cases x with
    | error e => cases h
    | ok x =>
      obtain rfl : x = a := by simpa using h
      rfl

theorem Plaintext.toPoly_vt {pt : Plaintext} {p : Poly .ntt} (h : pt.toPoly = some p) : p.vt = false := by
  unfold toPoly at h
  simp only [Option.bind_eq_bind, Option.bind_eq_some_iff] at h
  obtain ⟨_, -, l, -, cs, -, m, hm, x, hx, h⟩ := h
  have h1 : m.vt = false := by
    unfold scaledPoly at hm
    split at hm
    · split at hm
      · cases hm
      · simp only [Option.bind_eq_bind, Option.bind_eq_some_iff] at hm
        obtain ⟨_, -, _, -, hm⟩ := hm
        exact (Poly.tryFromU64_ctx (unwrapMath_eq_some hm)).2
    · simp only [Option.bind_eq_bind, Option.bind_eq_some_iff] at hm
      obtain ⟨_, -, hm⟩ := hm
      exact Poly.tryFromBigUint_vt (unwrapMath_eq_some hm)
  rw [Poly.mulAssignShoup_vt h, Poly.intoNtt_vt hx, h1, Bool.false_and]

/-! ## Operations on ciphertexts -/

namespace Ciphertext
variable {x y r : Ciphertext}

theorem neg_flags (h : x.neg = some r) : r.flags = x.flags := by
  unfold neg at h
  simp only [Option.bind_eq_bind, Option.bind_eq_some_iff] at h
  obtain ⟨c, hc, h⟩ := h
  obtain rfl : _ = r := by simpa using h
  exact map_of_mapM hc fun a _ b hb => Poly.neg_vt hb

theorem zipWith_flags (x y : Ciphertext) : ((x.c.zip y.c).map fun z => z.1.vt && z.2.vt) = List.zipWith (· && ·) x.flags y.flags := by
  rw [flags, flags, List.zipWith_map, List.zip, List.map_zipWith]

theorem add_flags (h : x.add y = some r) : r.flags = if x.c = [] then y.flags else if y.c = [] then x.flags else List.zipWith (· && ·) x.flags y.flags := by
  unfold add at h
  simp only [Option.bind_eq_bind, Option.bind_eq_some_iff] at h
  obtain ⟨_, -, h⟩ := h
  split at h
  · rename_i h1
    obtain rfl : y = r := by simpa using h
    rw [if_pos h1]
  · rename_i h1
    rw [if_neg h1]
    split at h
    · rename_i h2
      obtain rfl : x = r := by simpa using h
      rw [if_pos h2]
    · rename_i h2
      rw [if_neg h2]
      simp only [Option.bind_eq_some_iff] at h
      obtain ⟨_, -, _, -, c, hc, h⟩ := h
      obtain rfl : _ = r := by simpa using h
      rw [← zipWith_flags]
      exact map_of_mapM hc fun a _ b hb => Poly.addAssign_vt hb

theorem sub_flags (h : x.sub y = some r) : r.flags = if x.c = [] then y.flags else if y.c = [] then x.flags else List.zipWith (· && ·) x.flags y.flags := by
  unfold sub at h
  simp only [Option.bind_eq_bind, Option.bind_eq_some_iff] at h
  obtain ⟨_, -, h⟩ := h
  split at h
  · rename_i h1
    rw [if_pos h1, neg_flags h]
  · rename_i h1
    rw [if_neg h1]
    split at h
    · rename_i h2
      obtain rfl : x = r := by simpa using h
      rw [if_pos h2]
    · rename_i h2
      rw [if_neg h2]
      simp only [Option.bind_eq_some_iff] at h
      obtain ⟨_, -, _, -, c, hc, h⟩ := h
      obtain rfl : _ = r := by simpa using h
      rw [← zipWith_flags]
      exact map_of_mapM hc fun a _ b hb => Poly.subAssign_vt hb

variable {pt : Plaintext}

theorem addPlain_flags (h : x.addPlain pt = some r) : r.flags = false :: x.flags.tail := by
  unfold addPlain at h
  simp only [Option.bind_eq_bind, Option.bind_eq_some_iff] at h
  obtain ⟨_, -, h⟩ := h
  split at h
  · cases h
  · rename_i hc
    simp only [Option.bind_eq_some_iff] at h
    obtain ⟨_, -, _, -, p, hp, q, hq, h⟩ := h
    obtain rfl : _ = r := by simpa using h
    rw [flags, flags, hc, List.map_cons, List.map_cons, List.tail_cons, Poly.addAssign_vt hq, Plaintext.toPoly_vt hp, Bool.and_false]

theorem subPlain_flags (h : x.subPlain pt = some r) : r.flags = false :: x.flags.tail := by
  unfold subPlain at h
  simp only [Option.bind_eq_bind, Option.bind_eq_some_iff] at h
  obtain ⟨_, -, h⟩ := h
  split at h
  · cases h
  · rename_i hc
    simp only [Option.bind_eq_some_iff] at h
    obtain ⟨_, -, _, -, p, hp, q, hq, h⟩ := h
    obtain rfl : _ = r := by simpa using h
    rw [flags, flags, hc, List.map_cons, List.map_cons, List.tail_cons, Poly.subAssign_vt hq, Plaintext.toPoly_vt hp, Bool.and_false]

theorem plainSub_flags (h : plainSub pt x = some r) : r.flags = false :: x.flags.tail := by
  unfold plainSub at h
  rw [Option.bind_eq_bind, Option.bind_eq_some_iff] at h
  obtain ⟨y, hy, h⟩ := h
  rw [neg_flags h, subPlain_flags hy]

theorem mulPlain_flags (h : x.mulPlain pt = some r) : r.flags = x.flags.map (· && pt.polyNtt.vt) := by
  unfold mulPlain at h
  simp only [Option.bind_eq_bind, Option.bind_eq_some_iff] at h
  obtain ⟨_, -, h⟩ := h
  split at h
  · rename_i hc
    obtain rfl : _ = r := by simpa using h
    rw [flags, flags, hc]; rfl
  · simp only [Option.bind_eq_some_iff] at h
    obtain ⟨_, -, _, -, c, hc, h⟩ := h
    obtain rfl : _ = r := by simpa using h
    rw [flags, flags, List.map_map]
    exact map_of_mapM hc fun a _ b hb => Poly.mulAssign_vt hb

theorem switchDown_flags (h : x.switchDown = Res.ok r) : r.flags = x.flags := by
  unfold switchDown at h
  obtain ⟨_, -, h⟩ := Res.bind_eq_ok.1 h
  split at h
  · cases h
  · obtain ⟨c, hc, h⟩ := Res.bind_eq_ok.1 h
    rw [Res.pure_eq, Res.ok_inj] at h
    rw [← h]
    refine Res.map_of_mapM hc fun a _ b hb => ?_
    unfold switchPoly at hb
    obtain ⟨u, hu, hb⟩ := Res.bind_eq_ok.1 hb
    obtain ⟨v, hv, hb⟩ := Res.bind_eq_ok.1 hb
    rw [Poly.intoNtt_vt (Res.lift_eq_ok.1 hb), Poly.switchDown_vt (Res.math_eq_ok.1 hv), Poly.nttToPowerBasis_vt (Res.lift_eq_ok.1 hu)]

theorem switchLoop_flags : ∀ {n : Nat} {x r : Ciphertext}, switchLoop n x = Res.ok r → r.flags = x.flags
  | 0, x, r, h => by rw [switchLoop, Res.ok_inj] at h; rw [h]
  | n + 1, x, r, h => by
    rw [switchLoop] at h
    obtain ⟨y, hy, h⟩ := Res.bind_eq_ok.1 h
    rw [switchLoop_flags h, switchDown_flags hy]

theorem switchToLevel_flags {t : Nat} (h : x.switchToLevel t = Res.ok r) : r.flags = x.flags := by
  unfold switchToLevel at h
  obtain ⟨_, -, h⟩ := Res.bind_eq_ok.1 h
  split at h
  · cases h
  · split at h
    · cases h
    · exact switchLoop_flags h

/-! ### Products -/

theorem mulRow_vt {z : Bool} {ai : Poly .ntt} : ∀ {bs c c' : List (Poly .ntt)}, mulRow ai bs c = some c' → (z = true → ai.vt = true ∧ ∀ q ∈ bs, q.vt = true) →
    (∀ p ∈ c, p.vt = z) → c'.length = c.length ∧ ∀ p ∈ c', p.vt = z
  | [], c, c', h, _, hz => by
    obtain rfl : c = c' := by simpa [mulRow] using h
    exact ⟨rfl, hz⟩
  | _ :: _, [], c', h, _, _ => by simp [mulRow] at h
  | b :: bs, p :: ps, c', h, hb, hz => by
    rw [mulRow] at h
    simp only [Option.bind_eq_bind, Option.bind_eq_some_iff] at h
    obtain ⟨u, hu, v, hv, ws, hws, h⟩ := h
    obtain rfl : v :: ws = c' := by simpa using h
    obtain ⟨h1, h2⟩ := mulRow_vt hws (fun e => ⟨(hb e).1, fun q hq => (hb e).2 q (by simp [hq])⟩) fun p hp => hz p (by simp [hp])
    refine ⟨by simp [h1], fun w hw => ?_⟩
    rcases List.mem_cons.1 hw with rfl | hw
    · rw [Poly.addAssign_vt hv, Poly.mulAssign_vt hu, hz p (by simp)]
      cases z with
      | false => rfl
      | true => rw [(hb rfl).1, (hb rfl).2 b (by simp)]; rfl
    · exact h2 w hw

theorem mulAll_vt {z : Bool} : ∀ {as bs c c' : List (Poly .ntt)}, mulAll as bs c = some c' → (z = true → (∀ q ∈ as, q.vt = true) ∧ ∀ q ∈ bs, q.vt = true) →
    (∀ p ∈ c, p.vt = z) → c'.length = c.length ∧ ∀ p ∈ c', p.vt = z
  | [], bs, c, c', h, _, hz => by
    obtain rfl : c = c' := by simpa [mulAll] using h
    exact ⟨rfl, hz⟩
  | a :: as, bs, c, c', h, hb, hz => by
    rw [mulAll, Option.bind_eq_bind, Option.bind_eq_some_iff] at h
    obtain ⟨d, hd, h⟩ := h
    obtain ⟨h1, h2⟩ := mulRow_vt hd (fun e => ⟨(hb e).1 a (by simp), (hb e).2⟩) hz
    have hb' : z = true → (∀ q ∈ as, q.vt = true) ∧ ∀ q ∈ bs, q.vt = true := fun e => ⟨fun q hq => (hb e).1 q (by simp [hq]), (hb e).2⟩
    cases d with
    | nil =>
      obtain ⟨h3, h4⟩ := mulAll_vt h hb' (by simp)
      exact ⟨h3.trans h1, h4⟩
    | cons p ps =>
      dsimp only at h
      simp only [Option.bind_eq_bind, Option.bind_eq_some_iff] at h
      obtain ⟨qs, hqs, h⟩ := h
      obtain rfl : p :: qs = c' := by simpa using h
      obtain ⟨h3, h4⟩ := mulAll_vt hqs hb' fun q hq => h2 q (by simp [hq])
      refine ⟨by rw [← h1]; simp [h3], fun w hw => ?_⟩
      rcases List.mem_cons.1 hw with rfl | hw
      · exact h2 _ (by simp)
      · exact h4 w hw

theorem eq_replicate_map {c : List (Poly .ntt)} {z : Bool} {n : Nat} (hn : c.length = n) (h : ∀ p ∈ c, p.vt = z) : c.map (fun p => p.vt) = List.replicate n z := by
  rw [List.eq_replicate_iff]
  refine ⟨by simp [hn], fun b hb => ?_⟩
  obtain ⟨p, hp, rfl⟩ := List.mem_map.1 hb
  exact h p hp

theorem mulScaled_flags {mp : MulParams} {par : Par} {lv : Nat} {a b : List (Poly .ntt)} (h : mulScaled mp par lv a b = some r) :
    r.flags = List.replicate (a.length + b.length - 1) ((a.all fun p => p.vt) && b.all fun p => p.vt) := by
  unfold mulScaled at h
  simp only [Option.bind_eq_bind, Option.bind_eq_some_iff] at h
  obtain ⟨n, hn, c, hc, d, hd, h⟩ := h
  obtain rfl : _ = r := by simpa using h
  have hn' : n = a.length + b.length - 1 := by
    unfold subU at hn
    split at hn
    · simpa using hn.symm
    · cases hn
  rw [flags]
  have h1 : d.map (fun p => p.vt) = c.map fun p => p.vt := map_of_mapM hd fun a _ b hb => Scaler.scale_vt (unwrapMath_eq_some hb)
  have key : c.length = (List.replicate n (if (a ++ b).all (fun p => p.vt) then (Poly.zero .ntt mp.dst).allowVt else Poly.zero .ntt mp.dst)).length ∧
      ∀ p ∈ c, p.vt = (a ++ b).all fun p => p.vt := by
    refine mulAll_vt hc (fun e => ?_) fun p hp => ?_
    · rw [List.all_append, Bool.and_eq_true, List.all_eq_true, List.all_eq_true] at e
      exact e
    · obtain ⟨-, rfl⟩ := List.mem_replicate.1 hp
      cases (a ++ b).all fun p => p.vt <;> rfl
  rw [h1, eq_replicate_map (key.1.trans List.length_replicate) key.2, hn', List.all_append]

theorem permits_eq (x : Ciphertext) : x.permits = x.c.all fun p => p.vt := by rw [permits, flags, List.all_map]; rfl

theorem extend_flags {s : Scaler} {c d : List (Poly .ntt)} (h : (c.mapM fun ci => unwrapMath (s.scale ci)) = some d) : d.length = c.length ∧ (d.all fun p => p.vt) = c.all fun p => p.vt := by
  have h1 : d.map (fun p => p.vt) = c.map fun p => p.vt := map_of_mapM h fun a _ b hb => Scaler.scale_vt (unwrapMath_eq_some hb)
  refine ⟨by simpa using congrArg List.length h1, ?_⟩
  simpa [List.all_map, Function.comp_def] using congrArg (fun l => l.all id) h1

theorem mul_flags (h : x.mul y = some r) (hx : x.c ≠ []) :
    r.flags = if y.beq x then List.replicate (x.c.length + x.c.length - 1) x.permits else List.replicate (x.c.length + y.c.length - 1) (x.permits && y.permits) := by
  unfold mul at h
  rw [if_neg hx] at h
  split at h
  · rename_i he
    rw [if_pos he]
    simp only [Option.bind_eq_bind, Option.bind_eq_some_iff] at h
    obtain ⟨l, -, d, hd, h⟩ := h
    obtain ⟨h1, h2⟩ := extend_flags hd
    rw [mulScaled_flags h, h1, h2, permits_eq, Bool.and_self]
  · rename_i he
    rw [if_neg he]
    simp only [Option.bind_eq_bind, Option.bind_eq_some_iff] at h
    obtain ⟨_, -, _, -, l, -, d, hd, e, hee, h⟩ := h
    obtain ⟨h1, h2⟩ := extend_flags hd
    obtain ⟨h3, h4⟩ := extend_flags hee
    rw [mulScaled_flags h, h1, h2, h3, h4, permits_eq, permits_eq]

end Ciphertext

/-! ## Key switching -/

namespace KeySwitchingKey

theorem accumulate_vt {c : Context} {z : Bool} : ∀ {ds : List (List Nat)} {c0 c1 : List (Poly .nttShoup)} {a0 a1 : Poly .ntt} {r : Poly .ntt × Poly .ntt},
    accumulate c ds c0 c1 a0 a1 = some r → (z = true → (∀ p ∈ c0, p.vt = true) ∧ ∀ p ∈ c1, p.vt = true) → a0.vt = z → a1.vt = z → r.1.vt = z ∧ r.2.vt = z
  | [], c0, c1, a0, a1, r, h, _, h0, h1 => by
    obtain rfl : (a0, a1) = r := by simpa [accumulate] using h
    exact ⟨h0, h1⟩
  | d :: ds, [], c1, a0, a1, r, h, _, h0, h1 => by
    obtain rfl : (a0, a1) = r := by simpa [accumulate] using h
    exact ⟨h0, h1⟩
  | d :: ds, p :: c0, [], a0, a1, r, h, _, h0, h1 => by
    obtain rfl : (a0, a1) = r := by simpa [accumulate] using h
    exact ⟨h0, h1⟩
  | d :: ds, p :: c0, q :: c1, a0, a1, r, h, hz, h0, h1 => by
    rw [accumulate] at h
    simp only [Option.bind_eq_bind, Option.bind_eq_some_iff] at h
    obtain ⟨e, he, u, hu, u', hu', v, hv, v', hv', h⟩ := h
    refine accumulate_vt h (fun e => ⟨fun p hp => (hz e).1 p (by simp [hp]), fun p hp => (hz e).2 p (by simp [hp])⟩) ?_ ?_
    · rw [Poly.addAssign_vt hu', Poly.mulAssignShoup_vt hu, h0]
      cases z with
      | false => rfl
      | true => rw [Poly.constantNttLazyVt_vt he, (hz rfl).1 p (by simp)]; rfl
    · rw [Poly.addAssign_vt hv', Poly.mulAssignShoup_vt hv, h1]
      cases z with
      | false => rfl
      | true => rw [Poly.constantNttLazyVt_vt he, (hz rfl).2 q (by simp)]; rfl

theorem permitsVt_eq (k : KeySwitchingKey) (p : Poly .powerBasis) : k.permitsVt p = (p.vt && k.permits) := by rw [permitsVt, permits, List.all_append]

theorem configure_vt (k : KeySwitchingKey) (p : Poly .powerBasis) (c : Poly .ntt) : (k.configure p c).vt = (p.vt && k.permits) := by
  rw [← permitsVt_eq, configure]
  cases k.permitsVt p <;> rfl

variable {k : KeySwitchingKey} {p : Poly .powerBasis} {r : Poly .ntt × Poly .ntt}

theorem accumulate_permits {c : Context} {ds : List (List Nat)} {a0 a1 : Poly .ntt} (h : accumulate c ds k.c0 k.c1 (k.configure p a0) (k.configure p a1) = some r) :
    r.1.vt = (p.vt && k.permits) ∧ r.2.vt = (p.vt && k.permits) := by
  refine accumulate_vt h (fun e => ?_) (configure_vt k p a0) (configure_vt k p a1)
  rw [Bool.and_eq_true, permits, Bool.and_eq_true, List.all_eq_true, List.all_eq_true] at e
  exact e.2

theorem keySwitchDecomposition_vt (h : k.keySwitchDecomposition p = Res.ok r) : r.1.vt = (p.vt && k.permits) ∧ r.2.vt = (p.vt && k.permits) := by
  unfold keySwitchDecomposition at h
  split at h
  · cases h
  · obtain ⟨_, -, h⟩ := Res.bind_eq_ok.1 h
    obtain ⟨_, -, h⟩ := Res.bind_eq_ok.1 h
    obtain ⟨_, -, h⟩ := Res.bind_eq_ok.1 h
    obtain ⟨_, -, h⟩ := Res.bind_eq_ok.1 h
    exact accumulate_permits (Res.lift_eq_ok.1 h)

/-- Both halves of what key switching returns permit variable time exactly if the polynomial and the whole key do. -/
theorem keySwitch_vt (h : k.keySwitch p = Res.ok r) : r.1.vt = (p.vt && k.permits) ∧ r.2.vt = (p.vt && k.permits) := by
  unfold keySwitch at h
  split at h
  · exact keySwitchDecomposition_vt h
  · split at h
    · cases h
    · exact accumulate_permits (Res.lift_eq_ok.1 h)

theorem keySwitchAssign_vt {c0 c1 : Poly .ntt} (h : k.keySwitchAssign p c0 c1 = Res.ok r) : r.1.vt = (p.vt && k.permits) ∧ r.2.vt = (p.vt && k.permits) := by
  unfold keySwitchAssign at h
  split at h
  · exact keySwitchDecomposition_vt h
  · split at h
    · cases h
    · exact accumulate_permits (Res.lift_eq_ok.1 h)

end KeySwitchingKey

theorem switchPair_vt {a r : Poly .ntt × Poly .ntt} {x0 x1 : Poly .ntt} (h : switchPair a x0 x1 = Res.ok r) : r.1.vt = a.1.vt ∧ r.2.vt = a.2.vt := by
  unfold switchPair at h
  split at h
  · obtain ⟨u, hu, h⟩ := Res.bind_eq_ok.1 h
    obtain ⟨v, hv, h⟩ := Res.bind_eq_ok.1 h
    rw [Res.pure_eq, Res.ok_inj] at h
    rw [← h]
    exact ⟨Poly.switchDownNtt_vt hu, Poly.switchDownNtt_vt hv⟩
  · rw [Res.ok_inj] at h
    rw [h]
    exact ⟨rfl, rfl⟩

theorem RelinearizationKey.relinearizes_flags {k : RelinearizationKey} {ct r : Ciphertext} (h : k.relinearizes ct = Res.ok r) :
    ∃ f0 f1 f2, ct.flags = [f0, f1, f2] ∧ r.flags = [f0 && (f2 && k.ksk.permits), f1 && (f2 && k.ksk.permits)] := by
  unfold relinearizes at h
  obtain ⟨_, -, h⟩ := Res.bind_eq_ok.1 h
  split at h
  · rename_i x0 x1 x2 hc
    split at h
    · cases h
    · obtain ⟨p, hp, h⟩ := Res.bind_eq_ok.1 h
      obtain ⟨a, ha, h⟩ := Res.bind_eq_ok.1 h
      obtain ⟨a', ha', h⟩ := Res.bind_eq_ok.1 h
      obtain ⟨u, hu, h⟩ := Res.bind_eq_ok.1 h
      obtain ⟨v, hv, h⟩ := Res.bind_eq_ok.1 h
      rw [Res.pure_eq, Res.ok_inj] at h
      refine ⟨x0.vt, x1.vt, x2.vt, by rw [Ciphertext.flags, hc]; rfl, ?_⟩
      rw [← h, Ciphertext.flags, List.map_cons, List.map_cons, List.map_nil, Poly.addAssign_vt (Res.lift_eq_ok.1 hu), Poly.addAssign_vt (Res.lift_eq_ok.1 hv), (switchPair_vt ha').1,
        (switchPair_vt ha').2, (KeySwitchingKey.keySwitch_vt ha).1, (KeySwitchingKey.keySwitch_vt ha).2, Poly.nttToPowerBasis_vt (Res.lift_eq_ok.1 hp)]
  · cases h

namespace GaloisKey
variable {k : GaloisKey} {ct out r : Ciphertext}

theorem validateCiphertext_inv {x : Poly .ntt × Poly .ntt} (h : k.validateCiphertext ct = Res.ok x) : ct.c = [x.1, x.2] := by
  unfold validateCiphertext at h
  obtain ⟨_, -, h⟩ := Res.bind_eq_ok.1 h
  split at h
  · rename_i x0 x1 hc
    split at h
    · cases h
    · rw [Res.ok_inj] at h
      rw [← h, hc]
  · cases h

theorem relinearize_flags (h : k.relinearize ct = Res.ok r) : ∃ f0 f1, ct.flags = [f0, f1] ∧ r.flags = [f1 && k.ksk.permits && f0, f1 && k.ksk.permits] := by
  unfold relinearize at h
  obtain ⟨x, hx, h⟩ := Res.bind_eq_ok.1 h
  obtain ⟨s, hs, h⟩ := Res.bind_eq_ok.1 h
  obtain ⟨p, hp, h⟩ := Res.bind_eq_ok.1 h
  obtain ⟨a, ha, h⟩ := Res.bind_eq_ok.1 h
  obtain ⟨a', ha', h⟩ := Res.bind_eq_ok.1 h
  obtain ⟨t, ht, h⟩ := Res.bind_eq_ok.1 h
  obtain ⟨u, hu, h⟩ := Res.bind_eq_ok.1 h
  rw [Res.pure_eq, Res.ok_inj] at h
  refine ⟨x.1.vt, x.2.vt, by rw [Ciphertext.flags, validateCiphertext_inv hx]; rfl, ?_⟩
  rw [← h, Ciphertext.flags, List.map_cons, List.map_cons, List.map_nil, Poly.addAssign_vt (Res.lift_eq_ok.1 hu), (switchPair_vt ha').1, (switchPair_vt ha').2, (KeySwitchingKey.keySwitch_vt ha).1,
    (KeySwitchingKey.keySwitch_vt ha).2, Poly.nttToPowerBasis_vt (Res.lift_eq_ok.1 hp), Poly.substitute_vt (Res.lift_eq_ok.1 hs), Poly.substitute_vt (Res.lift_eq_ok.1 ht)]

theorem relinearizeInto_flags (h : k.relinearizeInto ct out = Res.ok r) : ∃ f0 f1, ct.flags = [f0, f1] ∧ r.flags = [f1 && k.ksk.permits && f0, f1 && k.ksk.permits] := by
  unfold relinearizeInto at h
  obtain ⟨x, hx, h⟩ := Res.bind_eq_ok.1 h
  obtain ⟨s, hs, h⟩ := Res.bind_eq_ok.1 h
  obtain ⟨p, hp, h⟩ := Res.bind_eq_ok.1 h
  obtain ⟨a, ha, h⟩ := Res.bind_eq_ok.1 h
  obtain ⟨a', ha', h⟩ := Res.bind_eq_ok.1 h
  obtain ⟨t, ht, h⟩ := Res.bind_eq_ok.1 h
  obtain ⟨u, hu, h⟩ := Res.bind_eq_ok.1 h
  rw [Res.pure_eq, Res.ok_inj] at h
  refine ⟨x.1.vt, x.2.vt, by rw [Ciphertext.flags, validateCiphertext_inv hx]; rfl, ?_⟩
  rw [← h, Ciphertext.flags, List.map_cons, List.map_cons, List.map_nil, Poly.addAssign_vt (Res.lift_eq_ok.1 hu), (switchPair_vt ha').1, (switchPair_vt ha').2, (KeySwitchingKey.keySwitchAssign_vt ha).1,
    (KeySwitchingKey.keySwitchAssign_vt ha).2, Poly.nttToPowerBasis_vt (Res.lift_eq_ok.1 hp), Poly.substitute_vt (Res.lift_eq_ok.1 hs), Poly.substitute_vt (Res.lift_eq_ok.1 ht)]

end GaloisKey

/-! ## Evaluation keys -/

namespace EvaluationKey
variable {k : EvaluationKey} {ct r : Ciphertext}

theorem getKey_mem {e : Nat} {g : GaloisKey} (h : k.getKey e = Res.ok g) : (e, g) ∈ k.gk := by
  unfold getKey at h
  split at h
  · rename_i g' hg
    rw [Res.ok_inj] at h
    rw [← h]
    obtain ⟨l₁, l₂, hl, -⟩ := List.lookup_eq_some_iff.1 hg
    rw [hl]; simp
  · cases h

theorem Permits.into (hk : k.Permits) {e : Nat} {g : GaloisKey} (hg : k.getKey e = Res.ok g) {f0 f1 : Bool} {x tmp : Ciphertext} (hx : x.flags = [f0, f1])
    (h : g.relinearizeInto x tmp = Res.ok r) : r.flags = [f0 && f1, f1] := by
  obtain ⟨h0, h1, e1, e2⟩ := GaloisKey.relinearizeInto_flags h
  rw [hx] at e1
  simp only [List.cons.injEq, and_true] at e1
  rw [e2, ← e1.1, ← e1.2, show g.ksk.permits = true from hk.1 _ (getKey_mem hg), Bool.and_true, Bool.and_comm]

theorem ne_nil {f0 f1 : Bool} {x : Ciphertext} (hx : x.flags = [f0, f1]) : x.c ≠ [] := fun e => by
  rw [Ciphertext.flags, e] at hx
  cases hx

theorem flags_add {f0 f1 : Bool} {x y : Ciphertext} (hx : x.flags = [f0, f1]) (hy : y.flags = [f0 && f1, f1]) (h : x.add y = some r) : r.flags = [f0 && f1, f1] := by
  rw [Ciphertext.add_flags h, if_neg (ne_nil hx), if_neg (ne_nil hy), hx, hy]
  cases f0 <;> cases f1 <;> rfl

theorem flags_sub {f0 f1 : Bool} {x y : Ciphertext} (hx : x.flags = [f0, f1]) (hy : y.flags = [f0 && f1, f1]) (h : x.sub y = some r) : r.flags = [f0 && f1, f1] := by
  rw [Ciphertext.sub_flags h, if_neg (ne_nil hx), if_neg (ne_nil hy), hx, hy]
  cases f0 <;> cases f1 <;> rfl

theorem innerLoop_flags (hk : k.Permits) {f0 f1 : Bool} : ∀ {l : List Nat} {x tmp : Ciphertext} {r : Ciphertext × Ciphertext}, k.innerLoop l x tmp = Res.ok r →
    (∃ f, x.flags = [f, f1] ∧ (f && f1) = (f0 && f1)) → ∃ f, r.1.flags = [f, f1] ∧ (f && f1) = (f0 && f1)
  | [], x, tmp, r, h, hx => by
    rw [innerLoop, Res.ok_inj] at h
    rw [← h]; exact hx
  | i :: is, x, tmp, r, h, ⟨f, hx, hf⟩ => by
    rw [innerLoop] at h
    split at h
    · cases h
    · obtain ⟨g, hg, h⟩ := Res.bind_eq_ok.1 h
      obtain ⟨t, ht, h⟩ := Res.bind_eq_ok.1 h
      obtain ⟨o, ho, h⟩ := Res.bind_eq_ok.1 h
      refine innerLoop_flags hk h ⟨f && f1, flags_add hx (hk.into hg hx ht) (Res.lift_eq_ok.1 ho), ?_⟩
      rw [Bool.and_assoc, Bool.and_self, hf]

theorem computesInnerSum_flags (hk : k.Permits) {f0 f1 : Bool} (hx : ct.flags = [f0, f1]) (h : k.computesInnerSum ct = Res.ok r) : r.flags = [f0 && f1, f1] := by
  unfold computesInnerSum at h
  obtain ⟨_, -, h⟩ := Res.bind_eq_ok.1 h
  obtain ⟨_, -, h⟩ := Res.bind_eq_ok.1 h
  split at h
  · cases h
  · obtain ⟨x, hl, h⟩ := Res.bind_eq_ok.1 h
    obtain ⟨g, hg, h⟩ := Res.bind_eq_ok.1 h
    obtain ⟨t, ht, h⟩ := Res.bind_eq_ok.1 h
    obtain ⟨f, hf, hff⟩ := innerLoop_flags (f0 := f0) (f1 := f1) hk hl ⟨f0, hx, rfl⟩
    rw [flags_add hf (hk.into hg hf ht) (Res.lift_eq_ok.1 h), hff]

theorem rotatesRows_flags (hk : k.Permits) {f0 f1 : Bool} (hx : ct.flags = [f0, f1]) (h : k.rotatesRows ct = Res.ok r) : r.flags = [f0 && f1, f1] := by
  unfold rotatesRows at h
  obtain ⟨_, -, h⟩ := Res.bind_eq_ok.1 h
  split at h
  · cases h
  · obtain ⟨g, hg, h⟩ := Res.bind_eq_ok.1 h
    exact hk.into hg hx h

theorem rotatesColumnsBy_flags (hk : k.Permits) {f0 f1 : Bool} {i : Nat} (hx : ct.flags = [f0, f1]) (h : k.rotatesColumnsBy ct i = Res.ok r) : r.flags = [f0 && f1, f1] := by
  unfold rotatesColumnsBy at h
  obtain ⟨_, -, h⟩ := Res.bind_eq_ok.1 h
  split at h
  · cases h
  · split at h
    · obtain ⟨_, -, h⟩ := Res.bind_eq_ok.1 h
      cases h
    · obtain ⟨g, hg, h⟩ := Res.bind_eq_ok.1 h
      exact hk.into hg hx h

theorem mulMonomial_flags {p : Poly .nttShoup} {f0 f1 : Bool} (hp : p.vt = true) (hx : ct.flags = [f0, f1]) (h : mulMonomial ct p = some r) : r.flags = [f0, f1] := by
  unfold mulMonomial at h
  split at h
  · rename_i c0 c1 rest hc
    simp only [Option.bind_eq_bind, Option.bind_eq_some_iff] at h
    obtain ⟨u, hu, v, hv, h⟩ := h
    obtain rfl : _ = r := by simpa using h
    rw [Ciphertext.flags, hc] at hx
    rw [Ciphertext.flags, List.map_cons, List.map_cons, Poly.mulAssignShoup_vt hu, Poly.mulAssignShoup_vt hv, hp, Bool.and_true, Bool.and_true, ← hx]
    rfl
  · cases h

theorem expandRow_flags (hk : k.Permits) {e : Nat} {g : GaloisKey} (hg : k.getKey e = Res.ok g) {p : Poly .nttShoup} (hp : p.vt = true) {size step : Nat} {f0 f1 : Bool} :
    ∀ {i : Nat} {xs : List Ciphertext} {sub : Ciphertext} {r : List Ciphertext × List Ciphertext × Ciphertext}, expandRow g p size step i xs sub = Res.ok r →
    (∀ x ∈ xs, ∃ f, x.flags = [f, f1] ∧ (f && f1) = (f0 && f1)) →
    r.1.length = xs.length ∧ r.2.1.length = xs.length ∧ (∀ x ∈ r.1, x.flags = [f0 && f1, f1]) ∧ ∀ j x, r.2.1[j]? = some x → step ||| (i + j) < size → x.flags = [f0 && f1, f1]
  | i, [], sub, r, h, _ => by
    rw [expandRow, Res.ok_inj] at h
    rw [← h]; simp
  | i, x :: xs, sub, r, h, hx => by
    rw [expandRow] at h
    obtain ⟨s, hs, h⟩ := Res.bind_eq_ok.1 h
    have hsplit : ∃ hi, (step ||| i < size → ∃ d, x.sub s = some d ∧ mulMonomial d p = some hi) ∧
        (do let low ← lift (x.add s); let rest ← expandRow g p size step (i + 1) xs s; pure (low :: rest.1, hi :: rest.2.1, rest.2.2)) = Res.ok r := by
      by_cases hc : step ||| i < size
      · rw [if_pos hc] at h
        obtain ⟨d, hd, h⟩ := Res.bind_eq_ok.1 h
        obtain ⟨hi, hhi, h⟩ := Res.bind_eq_ok.1 h
        exact ⟨hi, fun _ => ⟨d, Res.lift_eq_ok.1 hd, Res.lift_eq_ok.1 hhi⟩, h⟩
      · rw [if_neg hc] at h
        exact ⟨_, fun e => absurd e hc, h⟩
    obtain ⟨hi, hhi, h⟩ := hsplit
    obtain ⟨lo, hlo, h⟩ := Res.bind_eq_ok.1 h
    obtain ⟨q, hq, h⟩ := Res.bind_eq_ok.1 h
    rw [Res.pure_eq, Res.ok_inj] at h
    obtain ⟨h1, h2, h3, h4⟩ := expandRow_flags hk hg hp hq fun y hy => hx y (by simp [hy])
    obtain ⟨f, hf, hff⟩ := hx x (by simp)
    have hsub := hk.into hg hf hs
    rw [← h]
    refine ⟨by simp [h1], by simp [h2], fun y hy => ?_, fun j y hj hlt => ?_⟩
    · rcases List.mem_cons.1 hy with rfl | hy
      · rw [flags_add hf hsub (Res.lift_eq_ok.1 hlo), hff]
      · exact h3 y hy
    · cases j with
      | zero =>
        obtain rfl : hi = y := by simpa using hj
        rw [Nat.add_zero] at hlt
        obtain ⟨d, hd, hhi⟩ := hhi hlt
        rw [mulMonomial_flags hp (flags_sub hf hsub hd) hhi, hff]
      | succ j => exact h4 j y (by simpa using hj) (by rwa [Nat.add_assoc, Nat.add_comm 1 j])

theorem expandLoop_flags (hk : k.Permits) {size : Nat} {f0 f1 : Bool} : ∀ {left l : Nat} {xs rs : List Ciphertext} {sub : Ciphertext}, k.expandLoop size (left + 1) l xs sub = Res.ok rs →
    xs.length = 2 ^ l → 2 ^ (l + left) ≤ size → (∀ x ∈ xs, ∃ f, x.flags = [f, f1] ∧ (f && f1) = (f0 && f1)) → ∀ j r, rs[j]? = some r → j < size → r.flags = [f0 && f1, f1]
  | left, l, xs, rs, sub, h, hl, hsize, hx => by
    rw [expandLoop] at h
    split at h
    · cases h
    · rename_i p hp
      obtain ⟨g, hg, h⟩ := Res.bind_eq_ok.1 h
      obtain ⟨q, hq, h⟩ := Res.bind_eq_ok.1 h
      obtain ⟨h1, h2, h3, h4⟩ := expandRow_flags (f0 := f0) (f1 := f1) hk hg (hk.2 p (List.mem_of_getElem? hp)) hq hx
      have key : ∀ j r, (q.1 ++ q.2.1)[j]? = some r → j < size → r.flags = [f0 && f1, f1] := fun j r hj hlt => by
        rcases Nat.lt_or_ge j q.1.length with hc | hc
        · rw [List.getElem?_append_left hc] at hj
          exact h3 r (List.mem_of_getElem? hj)
        · rw [List.getElem?_append_right hc] at hj
          have hb : j - q.1.length < 2 ^ l := by
            have := (List.getElem?_eq_some_iff.1 hj).1
            omega
          refine h4 _ r hj ?_
          rw [Nat.zero_add, two_pow_or hb]
          omega
      cases left with
      | zero =>
        rw [expandLoop, Res.ok_inj] at h
        rw [← h]; exact key
      | succ left =>
        refine expandLoop_flags hk h (by rw [List.length_append, h1, h2, hl, Nat.pow_succ]; omega) (by rw [show l + 1 + left = l + (left + 1) by omega]; exact hsize) fun x hx => ?_
        obtain ⟨j, hj⟩ := List.mem_iff_getElem?.1 hx
        refine ⟨f0 && f1, key j x hj ?_, by rw [Bool.and_assoc, Bool.and_self]⟩
        have h5 := (List.getElem?_eq_some_iff.1 hj).1
        have h6 : 2 ^ (l + 1) ≤ 2 ^ (l + (left + 1)) := Nat.pow_le_pow_right (by omega) (by omega)
        rw [List.length_append, h1, h2, hl] at h5
        rw [Nat.pow_succ] at h6
        omega

end EvaluationKey
end Fhe
