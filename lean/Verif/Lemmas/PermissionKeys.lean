import Verif.Lemmas.Permission
import Verif.Lemmas.Scaler
/-!
# Permission to compute in variable time: keys, expansion, dot products and multiplicators
-/
namespace Fhe

theorem Res.unwrap_eq_some {α : Type} {x : Res α} {a : α} (h : x.unwrap = some a) : x = Res.ok a := by
  rcases Res.cases x with ⟨y, rfl⟩ | ⟨e, rfl⟩ | rfl
  · rw [Res.unwrap_ok] at h
    rw [Option.some.inj h]
  · cases h
  · cases h

theorem Poly.smallPowerBasis_vt {c : Context} {v : Nat} {rng : Nat → Nat} {p : Poly .powerBasis} (h : Poly.smallPowerBasis c v rng = some (.ok p)) : p.vt = false := by
  unfold Poly.smallPowerBasis at h
  split at h
  · cases h
  · rw [Option.bind_eq_bind, Option.bind_eq_some_iff] at h
    obtain ⟨x, -, h⟩ := h
    cases x with
    | error e => cases h
    | ok x => exact Poly.tryFromI64_vt h

theorem SecretKey.polyAt_vt {sk : SecretKey} {c : Context} {p : Poly .ntt} (h : sk.polyAt c = Res.ok p) : p.vt = false := by
  unfold polyAt at h
  obtain ⟨x, hx, h⟩ := Res.bind_eq_ok.1 h
  rw [Poly.intoNtt_vt (Res.lift_eq_ok.1 h), Poly.tryFromI64_vt (Res.math_eq_ok.1 hx)]

theorem all_allowVt {r : Rep} (l : List (Poly r)) : ((l.map Poly.allowVt).all fun p => p.vt) = true := by
  rw [List.all_map, List.all_eq_true]
  exact fun _ _ => rfl

namespace EvaluationKey
variable {k : EvaluationKey} {ct : Ciphertext}

theorem expands_flags (hk : k.Permits) {f0 f1 : Bool} {size : Nat} {rs : List Ciphertext} (hx : ct.flags = [f0, f1]) (h : k.expands ct size = Res.ok rs) :
    (size = 1 → rs = [ct]) ∧ (1 < size → ∀ r ∈ rs, r.flags = [f0 && f1, f1]) := by
  unfold expands at h
  obtain ⟨_, -, h⟩ := Res.bind_eq_ok.1 h
  split at h
  · cases h
  · split at h
    · cases h
    · rename_i h0 _
      dsimp only at h
      split at h
      · rename_i hl
        rw [Res.ok_inj] at h
        refine ⟨fun _ => h.symm, fun h1 => absurd hl ?_⟩
        rw [RnsScaler.ceilLog2, if_neg (by omega)]
        omega
      · rename_i hl
        have h1 : 1 < size := by
          by_contra hc
          exact hl (by rw [RnsScaler.ceilLog2, if_pos (by omega)])
        refine ⟨fun e => absurd e (by omega), fun _ r hr => ?_⟩
        obtain ⟨_, -, h⟩ := Res.bind_eq_ok.1 h
        split at h
        · obtain ⟨out, ho, h⟩ := Res.bind_eq_ok.1 h
          rw [Res.pure_eq, Res.ok_inj] at h
          rw [← h] at hr
          obtain ⟨j, hj⟩ := List.mem_iff_getElem?.1 hr
          obtain ⟨left, hleft⟩ := Nat.exists_eq_succ_of_ne_zero hl
          rw [hleft] at ho
          have h2 := (RnsScaler.ceilLog2_spec h1).2
          rw [hleft, Nat.pow_succ] at h2
          have hj' : j < size := by
            by_contra hc
            rw [List.getElem?_eq_none (by rw [List.length_take]; omega)] at hj
            cases hj
          rw [List.getElem?_take_of_lt hj'] at hj
          exact expandLoop_flags (f0 := f0) (f1 := f1) hk ho rfl (by rw [Nat.zero_add]; omega) (fun x hx' => ⟨f0, by rw [List.mem_singleton.1 hx', hx], rfl⟩) j r hj hj'
        · cases h

end EvaluationKey

/-! ## Keys -/

namespace KeySwitchingKey
variable {k : KeySwitchingKey} {g : Prg}

theorem generateC1_vt {c : Context} {seed : Seed} {n : Nat} {l : List (Poly .nttShoup)} (h : generateC1 g c seed n = some l) : (l.all fun p => p.vt) = true := by
  have h1 : l.map (fun p => p.vt) = (List.range n).map fun _ => true := map_of_mapM h fun a _ b hb => by
    rw [Option.bind_eq_bind, Option.bind_eq_some_iff] at hb
    obtain ⟨p, -, hb⟩ := hb
    obtain rfl : _ = b := by simpa using hb
    rfl
  rw [List.all_eq_true]
  intro p hp
  have h2 : p.vt ∈ l.map fun p => p.vt := List.mem_map.2 ⟨p, hp, rfl⟩
  rw [h1] at h2
  obtain ⟨_, -, h2⟩ := List.mem_map.1 h2
  exact h2.symm

theorem component_vt {sk : SecretKey} {s : Poly .ntt} {source : Poly .powerBasis} {c1i c0i : Poly .nttShoup} {gi : Nat} {rng : Nat → Nat}
    (h : component sk s source c1i gi rng = Res.ok c0i) : c0i.vt = true := by
  unfold component at h
  obtain ⟨_, -, h⟩ := Res.bind_eq_ok.1 h
  obtain ⟨_, -, h⟩ := Res.bind_eq_ok.1 h
  obtain ⟨_, -, h⟩ := Res.bind_eq_ok.1 h
  obtain ⟨_, -, h⟩ := Res.bind_eq_ok.1 h
  obtain ⟨_, -, h⟩ := Res.bind_eq_ok.1 h
  obtain ⟨_, -, h⟩ := Res.bind_eq_ok.1 h
  obtain ⟨_, -, h⟩ := Res.bind_eq_ok.1 h
  exact Poly.intoNttShoup_vt (Res.lift_eq_ok.1 h)

theorem components_vt {α : Type} {l : List α} {f : α → Res (Poly .nttShoup)} {r : List (Poly .nttShoup)} (h : l.mapM f = Res.ok r) (hf : ∀ a ∈ l, ∀ p, f a = Res.ok p → p.vt = true) :
    (r.all fun p => p.vt) = true := by
  have h1 : r.map (fun p => p.vt) = l.map fun _ => true := Res.map_of_mapM h hf
  rw [List.all_eq_true]
  intro p hp
  have h2 : p.vt ∈ r.map fun p => p.vt := List.mem_map.2 ⟨p, hp, rfl⟩
  rw [h1] at h2
  obtain ⟨_, -, h2⟩ := List.mem_map.1 h2
  exact h2.symm

theorem new_permits {b : Build} {sk : SecretKey} {source : Poly .powerBasis} {i j : Nat} {seed : Seed} {rngs : Nat → Nat → Nat} (h : new b g sk source i j seed rngs = Res.ok k) : k.permits = true := by
  unfold new at h
  obtain ⟨_, -, h⟩ := Res.bind_eq_ok.1 h
  obtain ⟨_, -, h⟩ := Res.bind_eq_ok.1 h
  split at h
  · cases h
  · split at h
    · obtain ⟨_, -, h⟩ := Res.bind_eq_ok.1 h
      obtain ⟨_, -, h⟩ := Res.bind_eq_ok.1 h
      obtain ⟨_, -, h⟩ := Res.bind_eq_ok.1 h
      obtain ⟨c1, h1, h⟩ := Res.bind_eq_ok.1 h
      obtain ⟨c0, h0, h⟩ := Res.bind_eq_ok.1 h
      rw [Res.pure_eq, Res.ok_inj] at h
      rw [← h, permits, Bool.and_eq_true]
      refine ⟨?_, generateC1_vt (Res.lift_eq_ok.1 h1)⟩
      unfold generateC0Decomposition at h0
      split at h0
      · cases h0
      · obtain ⟨_, -, h0⟩ := Res.bind_eq_ok.1 h0
        refine components_vt h0 fun a _ p hp => ?_
        obtain ⟨_, -, hp⟩ := Res.bind_eq_ok.1 hp
        exact component_vt hp
    · obtain ⟨c1, h1, h⟩ := Res.bind_eq_ok.1 h
      obtain ⟨c0, h0, h⟩ := Res.bind_eq_ok.1 h
      rw [Res.pure_eq, Res.ok_inj] at h
      rw [← h, permits, Bool.and_eq_true]
      refine ⟨?_, generateC1_vt (Res.lift_eq_ok.1 h1)⟩
      unfold generateC0 at h0
      split at h0
      · cases h0
      · obtain ⟨_, -, h0⟩ := Res.bind_eq_ok.1 h0
        obtain ⟨_, -, h0⟩ := Res.bind_eq_ok.1 h0
        obtain ⟨_, -, h0⟩ := Res.bind_eq_ok.1 h0
        refine components_vt h0 fun a _ p hp => ?_
        obtain ⟨_, -, hp⟩ := Res.bind_eq_ok.1 hp
        exact component_vt hp

theorem fromMsg_permits {m : KeySwitchingKeyMsg} {par : Par} (h : fromMsg g m par = Res.ok k) : k.permits = true := by
  unfold fromMsg at h
  obtain ⟨_, -, h⟩ := Res.bind_eq_ok.1 h
  obtain ⟨_, -, h⟩ := Res.bind_eq_ok.1 h
  obtain ⟨_, -, h⟩ := Res.bind_eq_ok.1 h
  split at h
  · cases h
  · split at h
    · cases h
    · split at h
      · cases h
      · dsimp only at h
        split at h
        all_goals
          obtain ⟨c1, -, h⟩ := Res.bind_eq_ok.1 h
          obtain ⟨c0, -, h⟩ := Res.bind_eq_ok.1 h
          rw [Res.pure_eq, Res.ok_inj] at h
          rw [← h, permits, all_allowVt, all_allowVt]
          rfl

end KeySwitchingKey

theorem RelinearizationKey.newLeveled_permits {b : Build} {g : Prg} {sk : SecretKey} {i j : Nat} {seed : Seed} {rngs : Nat → Nat → Nat} {k : RelinearizationKey}
    (h : newLeveled b g sk i j seed rngs = Res.ok k) : k.ksk.permits = true := by
  unfold newLeveled at h
  obtain ⟨_, -, h⟩ := Res.bind_eq_ok.1 h
  obtain ⟨_, -, h⟩ := Res.bind_eq_ok.1 h
  split at h
  · cases h
  · obtain ⟨_, -, h⟩ := Res.bind_eq_ok.1 h
    obtain ⟨_, -, h⟩ := Res.bind_eq_ok.1 h
    obtain ⟨_, -, h⟩ := Res.bind_eq_ok.1 h
    obtain ⟨_, -, h⟩ := Res.bind_eq_ok.1 h
    obtain ⟨_, -, h⟩ := Res.bind_eq_ok.1 h
    obtain ⟨k', hk, h⟩ := Res.bind_eq_ok.1 h
    rw [Res.pure_eq, Res.ok_inj] at h
    rw [← h]
    exact KeySwitchingKey.new_permits hk

theorem RelinearizationKey.fromBytes_permits {g : Prg} {m : List Nat} {par : Par} {k : RelinearizationKey} (h : fromBytes g m par = Res.ok k) : k.ksk.permits = true := by
  unfold fromBytes at h
  split at h
  · cases h
  · unfold fromMsg at h
    split at h
    · cases h
    · obtain ⟨k', hk, h⟩ := Res.bind_eq_ok.1 h
      rw [Res.pure_eq, Res.ok_inj] at h
      rw [← h]
      exact KeySwitchingKey.fromMsg_permits hk

theorem GaloisKey.new_permits {b : Build} {g : Prg} {sk : SecretKey} {e i j : Nat} {seed : Seed} {rngs : Nat → Nat → Nat} {k : GaloisKey} (h : new b g sk e i j seed rngs = Res.ok k) : k.ksk.permits = true := by
  unfold new at h
  obtain ⟨_, -, h⟩ := Res.bind_eq_ok.1 h
  obtain ⟨_, -, h⟩ := Res.bind_eq_ok.1 h
  obtain ⟨_, -, h⟩ := Res.bind_eq_ok.1 h
  obtain ⟨_, -, h⟩ := Res.bind_eq_ok.1 h
  obtain ⟨_, -, h⟩ := Res.bind_eq_ok.1 h
  obtain ⟨_, -, h⟩ := Res.bind_eq_ok.1 h
  obtain ⟨_, -, h⟩ := Res.bind_eq_ok.1 h
  obtain ⟨k', hk, h⟩ := Res.bind_eq_ok.1 h
  rw [Res.pure_eq, Res.ok_inj] at h
  rw [← h]
  exact KeySwitchingKey.new_permits hk

theorem GaloisKey.fromMsg_permits {g : Prg} {m : Nat × Option KeySwitchingKeyMsg} {par : Par} {k : GaloisKey} (h : fromMsg g m par = Res.ok k) : k.ksk.permits = true := by
  unfold fromMsg at h
  split at h
  · cases h
  · obtain ⟨k', hk, h⟩ := Res.bind_eq_ok.1 h
    obtain ⟨_, -, h⟩ := Res.bind_eq_ok.1 h
    obtain ⟨_, -, h⟩ := Res.bind_eq_ok.1 h
    rw [Res.pure_eq, Res.ok_inj] at h
    rw [← h]
    exact KeySwitchingKey.fromMsg_permits hk

namespace EvaluationKey

theorem makeMonomials_vt {n : Nat} {c : Context} {l : List (Poly .nttShoup)} (h : makeMonomials n c = Res.ok l) : ∀ p ∈ l, p.vt = true := by
  rw [← List.all_eq_true (p := fun p : Poly .nttShoup => p.vt)]
  unfold makeMonomials at h
  refine KeySwitchingKey.components_vt h fun a _ p hp => ?_
  obtain ⟨_, -, hp⟩ := Res.bind_eq_ok.1 hp
  obtain ⟨_, -, hp⟩ := Res.bind_eq_ok.1 hp
  obtain ⟨q, hq, hp⟩ := Res.bind_eq_ok.1 hp
  rw [Poly.intoNttShoup_vt (Res.lift_eq_ok.1 hp), Poly.tryFromI64_vt (Res.math_eq_ok.1 hq)]

theorem build_permits {b : Build} {g : Prg} {s : EvaluationKeyBuilder} {seeds : Nat → Seed} {rngs : Nat → Nat → Nat → Nat} {k : EvaluationKey} (h : s.build b g seeds rngs = Res.ok k) : k.Permits := by
  unfold EvaluationKeyBuilder.build at h
  obtain ⟨_, -, h⟩ := Res.bind_eq_ok.1 h
  obtain ⟨_, -, h⟩ := Res.bind_eq_ok.1 h
  obtain ⟨mo, hm, h⟩ := Res.bind_eq_ok.1 h
  obtain ⟨gk, hg, h⟩ := Res.bind_eq_ok.1 h
  rw [Res.pure_eq, Res.ok_inj] at h
  rw [← h]
  refine ⟨fun x hx => ?_, makeMonomials_vt hm⟩
  have h1 : gk.map (fun x => x.2.ksk.permits) = _ := Res.map_of_mapM (ψ := fun _ => true) hg fun a _ y hy => by
    obtain ⟨z, hz, hy⟩ := Res.bind_eq_ok.1 hy
    rw [Res.pure_eq, Res.ok_inj] at hy
    rw [← hy]
    exact GaloisKey.new_permits hz
  have h2 : x.2.ksk.permits ∈ gk.map fun x => x.2.ksk.permits := List.mem_map.2 ⟨x, hx, rfl⟩
  rw [h1] at h2
  obtain ⟨_, -, h2⟩ := List.mem_map.1 h2
  exact h2.symm

theorem readKeys_permits {g : Prg} {par : Par} {i j : Nat} : ∀ {ms : List (Nat × Option KeySwitchingKeyMsg)} {acc r : List (Nat × GaloisKey)}, readKeys g par i j ms acc = Res.ok r →
    (∀ x ∈ acc, x.2.ksk.permits = true) → ∀ x ∈ r, x.2.ksk.permits = true
  | [], acc, r, h, ha => by
    rw [readKeys, Res.ok_inj] at h
    rw [← h]; exact ha
  | m :: ms, acc, r, h, ha => by
    rw [readKeys] at h
    obtain ⟨k, hk, h⟩ := Res.bind_eq_ok.1 h
    split at h
    · cases h
    · split at h
      · cases h
      · refine readKeys_permits h fun x hx => ?_
        rcases List.mem_cons.1 hx with rfl | hx
        · exact GaloisKey.fromMsg_permits hk
        · exact ha x (List.mem_of_mem_filter hx)

theorem fromBytes_permits {b : Build} {g : Prg} {m : List Nat} {par : Par} {k : EvaluationKey} (h : fromBytes b g m par = Res.ok k) : k.Permits := by
  unfold fromBytes at h
  split at h
  · cases h
  · unfold fromMsg at h
    obtain ⟨gk, hg, h⟩ := Res.bind_eq_ok.1 h
    obtain ⟨_, -, h⟩ := Res.bind_eq_ok.1 h
    obtain ⟨mo, hm, h⟩ := Res.bind_eq_ok.1 h
    obtain ⟨_, -, h⟩ := Res.bind_eq_ok.1 h
    rw [Res.pure_eq, Res.ok_inj] at h
    rw [← h]
    exact ⟨readKeys_permits hg (by simp), makeMonomials_vt hm⟩

end EvaluationKey

/-! ## RGSW ciphertexts -/

theorem SecretKey.tryEncryptRgsw_permits {b : Build} {g : Prg} {sk : SecretKey} {pt : Plaintext} {s0 s1 : Seed} {r0 r1 : Nat → Nat → Nat} {k : RgswCiphertext}
    (h : sk.tryEncryptRgsw b g pt s0 s1 r0 r1 = Res.ok k) : k.ksk0.permits = true ∧ k.ksk1.permits = true := by
  unfold tryEncryptRgsw at h
  obtain ⟨_, -, h⟩ := Res.bind_eq_ok.1 h
  obtain ⟨_, -, h⟩ := Res.bind_eq_ok.1 h
  obtain ⟨_, -, h⟩ := Res.bind_eq_ok.1 h
  obtain ⟨_, -, h⟩ := Res.bind_eq_ok.1 h
  obtain ⟨_, -, h⟩ := Res.bind_eq_ok.1 h
  obtain ⟨_, -, h⟩ := Res.bind_eq_ok.1 h
  obtain ⟨_, -, h⟩ := Res.bind_eq_ok.1 h
  obtain ⟨k0, h0, h⟩ := Res.bind_eq_ok.1 h
  obtain ⟨k1, h1, h⟩ := Res.bind_eq_ok.1 h
  rw [Res.pure_eq, Res.ok_inj] at h
  rw [← h]
  exact ⟨KeySwitchingKey.new_permits h0, KeySwitchingKey.new_permits h1⟩

theorem RgswCiphertext.fromBytes_permits {g : Prg} {m : List Nat} {par : Par} {k : RgswCiphertext} (h : fromBytes g m par = Res.ok k) : k.ksk0.permits = true ∧ k.ksk1.permits = true := by
  unfold fromBytes at h
  split at h
  · cases h
  · unfold fromMsg at h
    split at h
    · cases h
    · obtain ⟨k0, h0, h⟩ := Res.bind_eq_ok.1 h
      split at h
      · cases h
      · obtain ⟨k1, h1, h⟩ := Res.bind_eq_ok.1 h
        split at h
        · cases h
        · rw [Res.ok_inj] at h
          rw [← h]
          exact ⟨KeySwitchingKey.fromMsg_permits h0, KeySwitchingKey.fromMsg_permits h1⟩

theorem Ciphertext.mulRgsw_flags {x r : Ciphertext} {k : RgswCiphertext} (h : x.mulRgsw k = some r) :
    ∃ f0 f1, x.flags = [f0, f1] ∧ r.flags = List.replicate 2 ((f0 && k.ksk0.permits) && (f1 && k.ksk1.permits)) := by
  unfold mulRgsw at h
  simp only [Option.bind_eq_bind, Option.bind_eq_some_iff] at h
  obtain ⟨_, -, _, -, h⟩ := h
  split at h
  · rename_i x0 x1 hc
    simp only [Option.bind_eq_some_iff] at h
    obtain ⟨p0, hp0, p1, hp1, a, ha, a', ha', u, hu, v, hv, h⟩ := h
    obtain rfl : _ = r := by simpa using h
    refine ⟨x0.vt, x1.vt, by rw [flags, hc]; rfl, ?_⟩
    obtain ⟨e1, e2⟩ := KeySwitchingKey.keySwitchAssign_vt (Res.unwrap_eq_some ha)
    obtain ⟨e3, e4⟩ := KeySwitchingKey.keySwitchAssign_vt (Res.unwrap_eq_some ha')
    rw [flags, List.map_cons, List.map_cons, List.map_nil, Poly.addAssign_vt hu, Poly.addAssign_vt hv, e1, e2, e3, e4, Poly.nttToPowerBasis_vt hp0, Poly.nttToPowerBasis_vt hp1]
    rfl
  · cases h

/-! ## Fresh ciphertexts -/

theorem SecretKey.tryEncrypt_flags {g : Prg} {sk : SecretKey} {pt : Plaintext} {seed : Seed} {rng : Nat → Nat} {r : Ciphertext} (h : sk.tryEncrypt g pt seed rng = Res.ok r) : r.flags = [true, true] := by
  unfold tryEncrypt at h
  obtain ⟨_, -, h⟩ := Res.bind_eq_ok.1 h
  obtain ⟨_, -, h⟩ := Res.bind_eq_ok.1 h
  unfold encryptPoly at h
  obtain ⟨_, -, h⟩ := Res.bind_eq_ok.1 h
  obtain ⟨_, -, h⟩ := Res.bind_eq_ok.1 h
  obtain ⟨_, -, h⟩ := Res.bind_eq_ok.1 h
  obtain ⟨_, -, h⟩ := Res.bind_eq_ok.1 h
  obtain ⟨_, -, h⟩ := Res.bind_eq_ok.1 h
  obtain ⟨_, -, h⟩ := Res.bind_eq_ok.1 h
  obtain ⟨_, -, h⟩ := Res.bind_eq_ok.1 h
  rw [Res.pure_eq, Res.ok_inj] at h
  rw [← h]
  rfl

theorem flags_disallow (c : Ciphertext) : ({ c with c := c.c.map Poly.disallowVt } : Ciphertext).flags = List.replicate c.c.length false := by
  rw [Ciphertext.flags, List.map_map, List.eq_replicate_iff]
  refine ⟨by simp, fun b hb => ?_⟩
  obtain ⟨p, -, rfl⟩ := List.mem_map.1 hb
  rfl

theorem PublicKey.new_flags {g : Prg} {sk : SecretKey} {seed : Seed} {rng : Nat → Nat} {pk : PublicKey} (h : PublicKey.new g sk seed rng = some pk) : pk.c.flags = [false, false] := by
  unfold PublicKey.new at h
  simp only [Option.bind_eq_bind, Option.bind_eq_some_iff] at h
  obtain ⟨_, -, c, hc, h⟩ := h
  obtain rfl : _ = pk := by simpa using h
  have h1 := congrArg List.length (SecretKey.tryEncrypt_flags (Res.unwrap_eq_some hc))
  rw [Ciphertext.flags, List.length_map] at h1
  rw [flags_disallow, h1]
  rfl

theorem PublicKey.tryEncrypt_flags {pk : PublicKey} {pt : Plaintext} {r0 r1 r2 : Nat → Nat} {r : Ciphertext} (h : pk.tryEncrypt pt r0 r1 r2 = Res.ok r) : r.flags = [true, true] := by
  unfold tryEncrypt at h
  obtain ⟨_, -, h⟩ := Res.bind_eq_ok.1 h
  obtain ⟨_, -, h⟩ := Res.bind_eq_ok.1 h
  obtain ⟨_, -, h⟩ := Res.bind_eq_ok.1 h
  split at h
  · obtain ⟨_, -, h⟩ := Res.bind_eq_ok.1 h
    cases h
  · iterate 13 obtain ⟨_, -, h⟩ := Res.bind_eq_ok.1 h
    rw [Res.pure_eq, Res.ok_inj] at h
    rw [← h]
    rfl

theorem flags_allow {par : Par} {seed : Option Seed} {lv : Nat} (c : List (Poly .ntt)) : ({ par, seed, c := c.map Poly.allowVt, level := lv } : Ciphertext).permits = true := by
  rw [Ciphertext.permits_eq]
  exact all_allowVt c

theorem Ciphertext.fromMsg_permits {g : Prg} {m : CiphertextMsg} {par : Par} {r : Ciphertext} (h : fromMsg g m par = Res.ok r) : r.permits = true := by
  unfold fromMsg at h
  split at h
  · cases h
  · obtain ⟨_, -, h⟩ := Res.bind_eq_ok.1 h
    split at h
    · cases h
    · obtain ⟨_, -, h⟩ := Res.bind_eq_ok.1 h
      obtain ⟨_, -, h⟩ := Res.bind_eq_ok.1 h
      split at h
      · rw [Res.pure_eq, Res.ok_inj] at h
        rw [← h]
        exact flags_allow _
      · split at h
        · cases h
        · obtain ⟨_, -, h⟩ := Res.bind_eq_ok.1 h
          rw [Res.pure_eq, Res.ok_inj] at h
          rw [← h]
          exact flags_allow _

theorem Ciphertext.fromBytes_permits {g : Prg} {m : List Nat} {par : Par} {r : Ciphertext} (h : fromBytes g m par = Res.ok r) : r.permits = true := by
  unfold fromBytes at h
  split at h
  · cases h
  · exact fromMsg_permits h

theorem PublicKey.fromBytes_flags {g : Prg} {m : List Nat} {par : Par} {pk : PublicKey} (h : fromBytes g m par = Res.ok pk) : ∀ f ∈ pk.c.flags, f = false := by
  unfold fromBytes at h
  split at h
  · cases h
  · unfold fromMsg at h
    split at h
    · cases h
    · obtain ⟨c, -, h⟩ := Res.bind_eq_ok.1 h
      split at h
      · cases h
      · rw [Res.ok_inj] at h
        rw [← h, flags_disallow]
        exact fun f hf => (List.mem_replicate.1 hf).2

theorem SecretKey.tryDecrypt_vt {b : Build} {sk : SecretKey} {ct : Ciphertext} {pt : Plaintext} (h : sk.tryDecrypt b ct = Res.ok pt) : pt.polyNtt.vt = false := by
  unfold tryDecrypt at h
  iterate 6 obtain ⟨_, -, h⟩ := Res.bind_eq_ok.1 h
  obtain ⟨p, hp, h⟩ := Res.bind_eq_ok.1 h
  rw [Res.pure_eq, Res.ok_inj] at h
  rw [← h]
  unfold finish at hp
  split at hp
  · iterate 3 obtain ⟨_, -, hp⟩ := Res.bind_eq_ok.1 hp
    obtain ⟨x, -, hp⟩ := Res.bind_eq_ok.1 hp
    split at hp
    · cases hp
    · iterate 2 obtain ⟨_, -, hp⟩ := Res.bind_eq_ok.1 hp
      obtain ⟨q, hq, hp⟩ := Res.bind_eq_ok.1 hp
      rw [Poly.intoNtt_vt (Res.lift_eq_ok.1 hp), (Poly.tryFromU64_ctx (Res.math_eq_ok.1 hq)).2]
  · iterate 4 obtain ⟨_, -, hp⟩ := Res.bind_eq_ok.1 hp
    obtain ⟨q, hq, hp⟩ := Res.bind_eq_ok.1 hp
    rw [Poly.intoNtt_vt (Res.lift_eq_ok.1 hp), Poly.tryFromBigUint_vt (Res.math_eq_ok.1 hq)]

/-! ## Multiplicators -/

theorem Multiplicator.multiply_flags {mp : Multiplicator} {x y r : Ciphertext} (h : mp.multiply x y = Res.ok r) : ∃ f0 f1 h0 h1, x.flags = [f0, f1] ∧ y.flags = [h0, h1] ∧
    r.flags = match mp.rk with
      | none => [f0 && h0, f0 && h1 && (f1 && h0), f1 && h1]
      | some k => [f0 && h0 && (f1 && h1 && k.ksk.permits), f0 && h1 && (f1 && h0) && (f1 && h1 && k.ksk.permits)] := by
  unfold multiply at h
  obtain ⟨_, -, h⟩ := Res.bind_eq_ok.1 h
  obtain ⟨_, -, h⟩ := Res.bind_eq_ok.1 h
  split at h
  · cases h
  · split at h
    · cases h
    · split at h
      · rename_i l0 l1 r0 r1 hx hy
        obtain ⟨t, ht, h⟩ := Res.bind_eq_ok.1 h
        obtain ⟨ps, hps, h⟩ := Res.bind_eq_ok.1 h
        have h1 : r.flags = ps.map fun p => p.vt := by
          dsimp only at h
          split at h
          · rw [Ciphertext.switchDown_flags h]
            rfl
          · rw [Res.pure_eq, Res.ok_inj] at h
            rw [← h]
            rfl
        have h2 : t.1.vt = (l0.vt && r0.vt) ∧ t.2.1.vt = (l0.vt && r1.vt && (l1.vt && r0.vt)) ∧ t.2.2.vt = (l1.vt && r1.vt) := by
          unfold product at ht
          obtain ⟨c00, e1, ht⟩ := Res.bind_eq_ok.1 ht
          obtain ⟨c01, e2, ht⟩ := Res.bind_eq_ok.1 ht
          obtain ⟨c10, e3, ht⟩ := Res.bind_eq_ok.1 ht
          obtain ⟨c11, e4, ht⟩ := Res.bind_eq_ok.1 ht
          obtain ⟨c0, e5, ht⟩ := Res.bind_eq_ok.1 ht
          obtain ⟨u, e6, ht⟩ := Res.bind_eq_ok.1 ht
          obtain ⟨v, e7, ht⟩ := Res.bind_eq_ok.1 ht
          obtain ⟨c1, e8, ht⟩ := Res.bind_eq_ok.1 ht
          obtain ⟨c2, e9, ht⟩ := Res.bind_eq_ok.1 ht
          obtain ⟨d0, k0, ht⟩ := Res.bind_eq_ok.1 ht
          obtain ⟨d1, k1, ht⟩ := Res.bind_eq_ok.1 ht
          obtain ⟨d2, k2, ht⟩ := Res.bind_eq_ok.1 ht
          rw [Res.pure_eq, Res.ok_inj] at ht
          rw [← ht]
          refine ⟨?_, ?_, ?_⟩
          · rw [Scaler.scale_vt (Res.math_eq_ok.1 k0), Poly.mulAssign_vt (Res.lift_eq_ok.1 e5), Scaler.scale_vt (Res.math_eq_ok.1 e1), Scaler.scale_vt (Res.math_eq_ok.1 e3)]
          · rw [Scaler.scale_vt (Res.math_eq_ok.1 k1), Poly.addAssign_vt (Res.lift_eq_ok.1 e8), Poly.mulAssign_vt (Res.lift_eq_ok.1 e6), Poly.mulAssign_vt (Res.lift_eq_ok.1 e7), Scaler.scale_vt (Res.math_eq_ok.1 e1),
              Scaler.scale_vt (Res.math_eq_ok.1 e2), Scaler.scale_vt (Res.math_eq_ok.1 e3), Scaler.scale_vt (Res.math_eq_ok.1 e4)]
          · rw [Scaler.scale_vt (Res.math_eq_ok.1 k2), Poly.mulAssign_vt (Res.lift_eq_ok.1 e9), Scaler.scale_vt (Res.math_eq_ok.1 e2), Scaler.scale_vt (Res.math_eq_ok.1 e4)]
        refine ⟨l0.vt, l1.vt, r0.vt, r1.vt, by rw [Ciphertext.flags, hx]; rfl, by rw [Ciphertext.flags, hy]; rfl, ?_⟩
        rw [h1, ← h2.1, ← h2.2.1, ← h2.2.2]
        unfold parts at hps
        split at hps
        · rename_i hrk
          rw [Res.ok_inj] at hps
          rw [← hps, hrk]
          rfl
        · rename_i k hrk
          obtain ⟨p, hp, hps⟩ := Res.bind_eq_ok.1 hps
          obtain ⟨a, ha, hps⟩ := Res.bind_eq_ok.1 hps
          obtain ⟨a', ha', hps⟩ := Res.bind_eq_ok.1 hps
          obtain ⟨u, hu, hps⟩ := Res.bind_eq_ok.1 hps
          obtain ⟨v, hv, hps⟩ := Res.bind_eq_ok.1 hps
          rw [Res.pure_eq, Res.ok_inj] at hps
          rw [← hps, hrk]
          simp only [List.map_cons, List.map_nil]
          rw [Poly.addAssign_vt (Res.lift_eq_ok.1 hu), Poly.addAssign_vt (Res.lift_eq_ok.1 hv), (switchPair_vt ha').1, (switchPair_vt ha').2, (KeySwitchingKey.keySwitch_vt ha).1,
            (KeySwitchingKey.keySwitch_vt ha).2, Poly.nttToPowerBasis_vt (Res.lift_eq_ok.1 hp)]
      · cases h

/-! ## Dot products -/

theorem dotReducePart_vt {c : Context} {d : Nat} {vt : Bool} {a : List (List Nat)} {p : Poly .ntt} (h : dotReducePart c d vt a = Res.ok p) : p.vt = vt := by
  unfold dotReducePart at h
  obtain ⟨x, -, h⟩ := Res.bind_eq_ok.1 h
  have h1 := Option.some.inj (Res.math_eq_ok.1 h)
  unfold Poly.tryFromArray2Ntt at h1
  split at h1
  · cases h1
  · obtain rfl : _ = p := by simpa using h1
    rfl

theorem mem_zip_polyNtt {ps : List (Poly .ntt)} : ∀ {cts : List Ciphertext} {pts : List Plaintext} {i : Nat} (_ : (cts.mapM fun ct => ct.c[i]?) = some ps) {ct : Ciphertext} {pt : Plaintext},
    (ct, pt) ∈ cts.zip pts → ∃ p, ct.c[i]? = some p ∧ (p, pt.polyNtt) ∈ ps.zip (pts.map Plaintext.polyNtt) := by
  intro cts
  induction cts generalizing ps with
  | nil => intro pts i _ ct pt h; simp at h
  | cons c cts ih =>
    intro pts i h ct pt hm
    rw [List.mapM_cons, Option.bind_eq_bind, Option.bind_eq_some_iff] at h
    obtain ⟨q, hq, h⟩ := h
    rw [Option.bind_eq_bind, Option.bind_eq_some_iff] at h
    obtain ⟨qs, hqs, h⟩ := h
    obtain rfl : q :: qs = ps := by simpa using h
    cases pts with
    | nil => simp at hm
    | cons pt' pts =>
      rw [List.zip_cons_cons] at hm
      rw [List.map_cons, List.zip_cons_cons]
      rcases List.mem_cons.1 hm with e | hm
      · obtain ⟨rfl, rfl⟩ := Prod.mk.inj e
        exact ⟨q, hq, by simp⟩
      · obtain ⟨p, hp, hp'⟩ := ih hqs hm
        exact ⟨p, hp, List.mem_cons_of_mem _ hp'⟩

theorem zip_all_polyNtt {i : Nat} : ∀ {cts : List Ciphertext} {pts : List Plaintext} {ps : List (Poly .ntt)}, (cts.mapM fun ct => ct.c[i]?) = some ps →
    ((cts.zip pts).all fun x => x.1.permits && x.2.polyNtt.vt) = true → ((ps.zip (pts.map Plaintext.polyNtt)).all fun y => y.1.vt && y.2.vt) = true
  | [], pts, ps, h, _ => by
    obtain rfl : [] = ps := by simpa using h
    simp
  | c :: cts, [], ps, h, _ => by simp
  | c :: cts, pt :: pts, ps, h, hall => by
    rw [List.mapM_cons, Option.bind_eq_bind, Option.bind_eq_some_iff] at h
    obtain ⟨q, hq, h⟩ := h
    rw [Option.bind_eq_bind, Option.bind_eq_some_iff] at h
    obtain ⟨qs, hqs, h⟩ := h
    obtain rfl : q :: qs = ps := by simpa using h
    rw [List.zip_cons_cons, List.all_cons, Bool.and_eq_true, Bool.and_eq_true, Ciphertext.permits_eq, List.all_eq_true] at hall
    rw [List.map_cons, List.zip_cons_cons, List.all_cons, zip_all_polyNtt hqs hall.2, hall.1.1 q (List.mem_of_getElem? hq), hall.1.2]
    rfl

theorem Res.getElem?_of_mapM {α β : Type} {f : α → Res β} : ∀ {l : List α} {l' : List β}, l.mapM f = Res.ok l' → ∀ {i : Nat} {y : β}, l'[i]? = some y → ∃ x, l[i]? = some x ∧ f x = Res.ok y
  | [], l', h, i, y, hy => by
    rw [List.mapM_nil, Res.pure_eq, Res.ok_inj] at h
    rw [← h] at hy
    simp at hy
  | a :: l, l', h, i, y, hy => by
    rw [List.mapM_cons] at h
    obtain ⟨b, hb, h⟩ := Res.bind_eq_ok.1 h
    obtain ⟨bs, hbs, h⟩ := Res.bind_eq_ok.1 h
    rw [Res.pure_eq, Res.ok_inj] at h
    rw [← h] at hy
    cases i with
    | zero =>
      obtain rfl : b = y := by simpa using hy
      exact ⟨a, rfl, hb⟩
    | succ i => exact Res.getElem?_of_mapM hbs (by simpa using hy)

theorem dotValidate_length {first : Ciphertext} {c : Context} : ∀ {l : List (Ciphertext × Plaintext)}, dotValidate first c l = Res.ok () → ∀ x ∈ l, x.1.c.length = first.c.length
  | [], _, x, hx => by cases hx
  | (ct, pt) :: l, h, x, hx => by
    rw [dotValidate] at h
    obtain ⟨_, -, h⟩ := Res.bind_eq_ok.1 h
    obtain ⟨_, -, h⟩ := Res.bind_eq_ok.1 h
    split at h
    · cases h
    · rename_i hc
      rcases List.mem_cons.1 hx with rfl | hx
      · exact not_not.1 hc
      · exact dotValidate_length h x hx

theorem zipUpdate_length {α β : Type} {f : α → β → Panics α} : ∀ {as : List α} {bs : List β} {r : List α}, zipUpdate f as bs = some r → r.length = as.length
  | [], bs, r, h => by
    obtain rfl : [] = r := by simpa [zipUpdate] using h
    rfl
  | a :: as, [], r, h => by
    obtain rfl : a :: as = r := by simpa [zipUpdate] using h
    rfl
  | a :: as, b :: bs, r, h => by
    rw [zipUpdate] at h
    simp only [Option.bind_eq_bind, Option.bind_eq_some_iff] at h
    obtain ⟨x, -, xs, hxs, h⟩ := h
    obtain rfl : x :: xs = r := by simpa using h
    simp [zipUpdate_length hxs]

theorem dotFold_length : ∀ {l : List (Ciphertext × Plaintext)} {acc r : List (List (List Nat))}, l.foldlM (fun acc x => dotAccumulate acc x.1 x.2) acc = some r → r.length = acc.length
  | [], acc, r, h => by
    obtain rfl : acc = r := by simpa using h
    rfl
  | x :: l, acc, r, h => by
    rw [List.foldlM_cons, Option.bind_eq_bind, Option.bind_eq_some_iff] at h
    obtain ⟨y, hy, h⟩ := h
    rw [dotFold_length h, zipUpdate_length hy]

/-- A part of a dot product permits variable time only if the plaintexts and the corresponding parts of the ciphertexts do; and it does if all
of them do. -/
theorem dotProductScalar_flags {cts : List Ciphertext} {pts : List Plaintext} {r : Ciphertext} (h : dotProductScalar cts pts = Res.ok r) :
    (∀ i : Nat, r.flags[i]? = some true → ∀ x ∈ cts.zip pts, x.1.flags[i]? = some true ∧ x.2.polyNtt.vt = true) ∧
    (((cts.zip pts).all fun x => x.1.permits && x.2.polyNtt.vt) = true → r.permits = true) := by
  have hperm : ((cts.zip pts).all fun x => x.1.c.all (fun p => p.vt) && x.2.polyNtt.vt) = (cts.zip pts).all fun x => x.1.permits && x.2.polyNtt.vt := by
    simp only [Ciphertext.permits_eq]
  unfold dotProductScalar at h
  split at h
  · cases h
  · split at h
    · cases h
    · split at h
      · cases h
      · rename_i first rest _ _
        obtain ⟨_, -, h⟩ := Res.bind_eq_ok.1 h
        obtain ⟨ctx, -, h⟩ := Res.bind_eq_ok.1 h
        obtain ⟨_, hval, h⟩ := Res.bind_eq_ok.1 h
        obtain ⟨_, -, h⟩ := Res.bind_eq_ok.1 h
        obtain ⟨_, -, h⟩ := Res.bind_eq_ok.1 h
        have hlen := dotValidate_length hval
        split at h
        · obtain ⟨c, hc, h⟩ := Res.bind_eq_ok.1 h
          rw [Res.pure_eq, Res.ok_inj] at h
          rw [← h]
          refine ⟨fun i hi x hx => ?_, fun hall => ?_⟩
          · rw [Ciphertext.flags, List.getElem?_map, Option.map_eq_some_iff] at hi
            obtain ⟨p, hp, hpv⟩ := hi
            obtain ⟨j, hj, hp'⟩ := Res.getElem?_of_mapM hc hp
            obtain ⟨hj1, hj2⟩ := List.getElem?_eq_some_iff.1 hj
            rw [List.getElem_range] at hj2
            subst hj2
            obtain ⟨ps, hps, hp'⟩ := Res.bind_eq_ok.1 hp'
            rw [Poly.dotProduct_vt (Res.math_eq_ok.1 hp'), List.all_eq_true] at hpv
            obtain ⟨q, hq, hq'⟩ := mem_zip_polyNtt (Res.lift_eq_ok.1 hps) (pts := pts) (ct := x.1) (pt := x.2) hx
            have h1 := hpv _ hq'
            rw [Bool.and_eq_true] at h1
            rw [Ciphertext.flags, List.getElem?_map, hq]
            exact ⟨by rw [Option.map_some, h1.1], h1.2⟩
          · rw [Ciphertext.permits_eq]
            refine List.all_eq_true.2 fun p hp => ?_
            obtain ⟨i, hi⟩ := List.mem_iff_getElem?.1 hp
            obtain ⟨j, hj, hp'⟩ := Res.getElem?_of_mapM hc hi
            obtain ⟨ps, hps, hp'⟩ := Res.bind_eq_ok.1 hp'
            rw [Poly.dotProduct_vt (Res.math_eq_ok.1 hp')]
            exact zip_all_polyNtt (Res.lift_eq_ok.1 hps) hall
        · obtain ⟨acc, hacc, h⟩ := Res.bind_eq_ok.1 h
          obtain ⟨c, hc, h⟩ := Res.bind_eq_ok.1 h
          rw [Res.pure_eq, Res.ok_inj] at h
          rw [← h]
          have hvt : ∀ (i : Nat) (p : Poly .ntt), c[i]? = some p → i < first.c.length ∧ p.vt = ((first :: rest).zip pts).all fun x => x.1.permits && x.2.polyNtt.vt := fun i p hp => by
            obtain ⟨a, ha, hp'⟩ := Res.getElem?_of_mapM hc hp
            have h1 := (List.getElem?_eq_some_iff.1 ha).1
            rw [dotFold_length (Res.lift_eq_ok.1 hacc), List.length_replicate] at h1
            exact ⟨h1, by rw [dotReducePart_vt hp', hperm]⟩
          refine ⟨fun i hi x hx => ?_, fun hall => ?_⟩
          · rw [Ciphertext.flags, List.getElem?_map, Option.map_eq_some_iff] at hi
            obtain ⟨p, hp, hpv⟩ := hi
            obtain ⟨h1, h2⟩ := hvt i p hp
            rw [h2, List.all_eq_true] at hpv
            have h3 := hpv x hx
            rw [Bool.and_eq_true, Ciphertext.permits_eq, List.all_eq_true] at h3
            rw [← hlen x hx] at h1
            rw [Ciphertext.flags, List.getElem?_map, List.getElem?_eq_getElem h1, Option.map_some, h3.1 _ (List.getElem_mem h1)]
            exact ⟨rfl, h3.2⟩
          · rw [Ciphertext.permits_eq]
            refine List.all_eq_true.2 fun p hp => ?_
            obtain ⟨i, hi⟩ := List.mem_iff_getElem?.1 hp
            rw [(hvt i p hi).2, hall]

end Fhe
