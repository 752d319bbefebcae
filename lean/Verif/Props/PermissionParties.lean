import Verif.Props.Permission
import Verif.Props.Mbfv
/-!
# Permission to compute in variable time: several parties
-/
namespace Fhe.Props
open Nega ParamsBuilder Ciphertext

variable {b : Build} {par : Par} {r ct : Ciphertext} {sk sk' : SecretKey} {pk : PublicKey}

theorem foldl_vt {α : Type} {f : α → Poly .ntt} : ∀ {l : List α} {p q : Poly .ntt}, l.foldlM (fun p x => p.addAssign (f x)) p = some q → q.vt = (p.vt && l.all fun x => (f x).vt)
  | [], p, q, h => by
    obtain rfl : p = q := by simpa using h
    simp
  | x :: l, p, q, h => by
    rw [List.foldlM_cons, Option.bind_eq_bind, Option.bind_eq_some_iff] at h
    obtain ⟨p', h1, h2⟩ := h
    rw [foldl_vt h2, Poly.addAssign_vt h1, List.all_cons, Bool.and_assoc]

theorem foldl_pair_vt {α : Type} {f g : α → Poly .ntt} : ∀ {l : List α} {p q : Poly .ntt × Poly .ntt},
    l.foldlM (fun (p : Poly .ntt × Poly .ntt) x => do return (← p.1.addAssign (f x), ← p.2.addAssign (g x))) p = some q →
      q.1.vt = (p.1.vt && l.all fun x => (f x).vt) ∧ q.2.vt = (p.2.vt && l.all fun x => (g x).vt)
  | [], p, q, h => by
    obtain rfl : p = q := by simpa using h
    simp
  | x :: l, p, q, h => by
    rw [List.foldlM_cons, Option.bind_eq_bind, Option.bind_eq_some_iff] at h
    obtain ⟨p', h1, h2⟩ := h
    simp only [Option.bind_eq_bind, Option.bind_eq_some_iff] at h1
    obtain ⟨a, ha, c, hc, h1⟩ := h1
    obtain rfl : (a, c) = p' := by simpa using h1
    obtain ⟨e1, e2⟩ := foldl_pair_vt h2
    rw [e1, e2, Poly.addAssign_vt ha, Poly.addAssign_vt hc, List.all_cons, List.all_cons, Bool.and_assoc, Bool.and_assoc]
    exact ⟨rfl, rfl⟩

theorem new_pair_flags {p q : Poly .ntt} (h : Ciphertext.new [p, q] par = Res.ok r) : r.flags = [p.vt, q.vt] := by
  unfold Ciphertext.new at h
  split at h
  · cases h
  · obtain ⟨_, -, h⟩ := Res.bind_eq_ok.1 h
    obtain ⟨_, -, h⟩ := Res.bind_eq_ok.1 h
    split at h
    · cases h
    · rw [Res.ok_inj] at h
      rw [← h]; rfl

/-- C87: common random polynomials do not permit variable time. A share of a public key does. A joint public key, made from such shares, permits it in its first
part, unlike the public keys of one party, and in its second part if the random polynomial does. -/
theorem C87_joint_public_key {crp : CommonRandomPoly} {level : Nat} {rows : List (List Nat)} {rng : Nat → Nat} {share : PublicKeyShare} {shares : List PublicKeyShare} :
    (CommonRandomPoly.newLeveled par level rows = Res.ok crp → crp.poly.vt = false) ∧
    (PublicKeyShare.new sk crp rng = Res.ok share → share.p0Share.vt = true ∧ share.crp = crp) ∧
    (PublicKeyShare.aggregate (share :: shares) = Res.ok pk → pk.c.flags = [(share :: shares).all fun x => x.p0Share.vt, share.crp.poly.vt]) := by
  refine ⟨fun h => ?_, fun h => ?_, fun h => ?_⟩
  · unfold CommonRandomPoly.newLeveled at h
    obtain ⟨c, -, h⟩ := Res.bind_eq_ok.1 h
    obtain ⟨p, hp, h⟩ := Res.bind_eq_ok.1 h
    rw [Res.pure_eq, Res.ok_inj] at h
    rw [← h]
    have hp := Res.lift_eq_ok.1 hp
    unfold Poly.random at hp
    rw [Option.bind_eq_bind, Option.bind_eq_some_iff] at hp
    obtain ⟨rs, -, hp⟩ := hp
    rw [if_neg (by decide)] at hp
    obtain rfl := Option.some.inj hp
    rfl
  · unfold PublicKeyShare.new at h
    iterate 6 obtain ⟨_, -, h⟩ := Res.bind_eq_ok.1 h
    rw [Res.pure_eq, Res.ok_inj] at h
    rw [← h]
    exact ⟨rfl, rfl⟩
  · unfold PublicKeyShare.aggregate at h
    obtain ⟨p, hp, h⟩ := Res.bind_eq_ok.1 h
    obtain ⟨c, hc, h⟩ := Res.bind_eq_ok.1 h
    rw [Res.pure_eq, Res.ok_inj] at h
    rw [← h]
    show c.flags = _
    rw [new_pair_flags hc, foldl_vt (f := PublicKeyShare.p0Share) (Res.lift_eq_ok.1 hp), List.all_cons]

/-- C87: the result of switching a ciphertext to a public key permits variable time in its second part, and in its first part if the ciphertext does. -/
theorem C87_switch_public {share : PublicKeySwitchShare} {shares : List PublicKeySwitchShare} {rngU rng0 rng1 : Nat → Nat} :
    (PublicKeySwitchShare.new sk pk ct rngU rng0 rng1 = Res.ok share → share.h0Share.vt = true ∧ share.h1Share.vt = true ∧ ct.c[0]? = some share.c0) ∧
    (PublicKeySwitchShare.aggregate (share :: shares) = Res.ok r → r.flags = [share.c0.vt && (share :: shares).all fun x => x.h0Share.vt, (share :: shares).all fun x => x.h1Share.vt]) := by
  refine ⟨fun h => ?_, fun h => ?_⟩
  · unfold PublicKeySwitchShare.new at h
    split at h
    · cases h
    · split at h
      · cases h
      · iterate 3 obtain ⟨_, -, h⟩ := Res.bind_eq_ok.1 h
        dsimp only at h
        iterate 12 obtain ⟨_, -, h⟩ := Res.bind_eq_ok.1 h
        obtain ⟨c, hc, h⟩ := Res.bind_eq_ok.1 h
        rw [Res.pure_eq, Res.ok_inj] at h
        rw [← h]
        exact ⟨rfl, rfl, Res.lift_eq_ok.1 hc⟩
  · unfold PublicKeySwitchShare.aggregate at h
    obtain ⟨p, hp, h⟩ := Res.bind_eq_ok.1 h
    obtain ⟨c, hc, h⟩ := Res.bind_eq_ok.1 h
    obtain ⟨e1, e2⟩ := foldl_pair_vt (f := PublicKeySwitchShare.h0Share) (g := PublicKeySwitchShare.h1Share) (Res.lift_eq_ok.1 hp)
    rw [new_pair_flags h, Poly.addAssign_vt (Res.lift_eq_ok.1 hc), e1, e2, List.all_cons, List.all_cons]

/-- C87: shares for switching to another joint key and for decrypting do not permit variable time. The result of switching does not in its first part, and in its second
part if the ciphertext does; a plaintext that several parties decrypt does not. -/
theorem C87_switch_secret {share : SecretKeySwitchShare} {shares : List SecretKeySwitchShare} {ds : DecryptionShare} {dss : List DecryptionShare} {pt : Plaintext} {rng : Nat → Nat} :
    (SecretKeySwitchShare.new sk sk' ct rng = Res.ok share → share.hShare.vt = false ∧ share.ct = ct) ∧
    (DecryptionShare.new sk ct rng = Res.ok ds → ds.sksShare.hShare.vt = false ∧ ds.sksShare.ct = ct) ∧
    (SecretKeySwitchShare.aggregate (share :: shares) = Res.ok r →
      ∃ p0 p1, share.ct.c[0]? = some p0 ∧ share.ct.c[1]? = some p1 ∧ r.flags = [p0.vt && (share :: shares).all fun x => x.hShare.vt, p1.vt]) ∧
    (DecryptionShare.aggregate dss = Res.ok pt → pt.polyNtt.vt = false) := by
  have hnew : ∀ {sk sk' : SecretKey} {share : SecretKeySwitchShare}, SecretKeySwitchShare.new sk sk' ct rng = Res.ok share → share.hShare.vt = false ∧ share.ct = ct := by
    intro sk sk' share h
    unfold SecretKeySwitchShare.new at h
    split at h
    · cases h
    · split at h
      · cases h
      · split at h
        · cases h
        · iterate 6 obtain ⟨_, -, h⟩ := Res.bind_eq_ok.1 h
          obtain ⟨p, hp, h⟩ := Res.bind_eq_ok.1 h
          obtain ⟨q, hq, h⟩ := Res.bind_eq_ok.1 h
          rw [Res.pure_eq, Res.ok_inj] at h
          rw [← h]
          refine ⟨?_, rfl⟩
          rw [Poly.addAssign_vt (Res.lift_eq_ok.1 hq), Poly.mulAssign_vt (Res.lift_eq_ok.1 hp)]
          rfl
  refine ⟨hnew, fun h => ?_, fun h => ?_, fun h => ?_⟩
  · unfold DecryptionShare.new at h
    dsimp only at h
    obtain ⟨x, hx, h⟩ := Res.bind_eq_ok.1 h
    rw [Res.pure_eq, Res.ok_inj] at h
    rw [← h]
    exact hnew hx
  · unfold SecretKeySwitchShare.aggregate at h
    obtain ⟨p, hp, h⟩ := Res.bind_eq_ok.1 h
    obtain ⟨p0, h0, h⟩ := Res.bind_eq_ok.1 h
    obtain ⟨c, hc, h⟩ := Res.bind_eq_ok.1 h
    obtain ⟨p1, h1, h⟩ := Res.bind_eq_ok.1 h
    refine ⟨p0, p1, Res.lift_eq_ok.1 h0, Res.lift_eq_ok.1 h1, ?_⟩
    rw [new_pair_flags h, Poly.addAssign_vt (Res.lift_eq_ok.1 hc), foldl_vt (f := SecretKeySwitchShare.hShare) (Res.lift_eq_ok.1 hp), List.all_cons]
  · unfold DecryptionShare.aggregate at h
    iterate 5 obtain ⟨_, -, h⟩ := Res.bind_eq_ok.1 h
    iterate 4 obtain ⟨_, -, h⟩ := Res.bind_eq_ok.1 h
    obtain ⟨a, ha, h⟩ := Res.bind_eq_ok.1 h
    obtain ⟨p, hp, h⟩ := Res.bind_eq_ok.1 h
    rw [Res.pure_eq, Res.ok_inj] at h
    rw [← h]
    show p.vt = false
    rw [Poly.intoNtt_vt (Res.lift_eq_ok.1 hp), Poly.tryFromBigUint_vt (Res.math_eq_ok.1 ha)]

/-! ## Relinearization keys -/

theorem _root_.Fhe.NonePermits.mapM {r : Rep} {α : Type} {f : α → Res (Poly r)} {l : List α} {q : List (Poly r)} (h : l.mapM f = Res.ok q) (hf : ∀ x ∈ l, ∀ p, f x = Res.ok p → p.vt = false) :
    NonePermits q := by
  induction l generalizing q with
  | nil =>
    rw [List.mapM_nil, Res.pure_eq, Res.ok_inj] at h
    rw [← h]; intro p hp; cases hp
  | cons x l ih =>
    rw [List.mapM_cons] at h
    obtain ⟨p, hp, h⟩ := Res.bind_eq_ok.1 h
    obtain ⟨q', hq, h⟩ := Res.bind_eq_ok.1 h
    rw [Res.pure_eq, Res.ok_inj] at h
    rw [← h]
    intro y hy
    rcases List.mem_cons.1 hy with rfl | hy
    · exact hf x (List.mem_cons_self ..) _ hp
    · exact ih hq (fun x hx => hf x (List.mem_cons_of_mem _ hx)) y hy

theorem _root_.Fhe.NonePermits.zip : ∀ {l l' q : List (Poly .ntt)}, zipUpdate Poly.addAssign l l' = some q → NonePermits l → NonePermits q ∧ q.length = l.length
  | [], _, q, h, hl => by
    obtain rfl : [] = q := by simpa [zipUpdate] using h
    exact ⟨hl, rfl⟩
  | x :: l, [], q, h, hl => by
    obtain rfl : x :: l = q := by simpa [zipUpdate] using h
    exact ⟨hl, rfl⟩
  | x :: l, y :: l', q, h, hl => by
    rw [zipUpdate] at h
    simp only [Option.bind_eq_bind, Option.bind_eq_some_iff] at h
    obtain ⟨a, ha, q', hq, h⟩ := h
    obtain rfl : a :: q' = q := by simpa using h
    obtain ⟨e1, e2⟩ := NonePermits.zip hq (fun p hp => hl p (List.mem_cons_of_mem _ hp))
    refine ⟨fun p hp => ?_, by simp [e2]⟩
    rcases List.mem_cons.1 hp with rfl | hp
    · rw [Poly.addAssign_vt ha, hl x (List.mem_cons_self ..)]; rfl
    · exact e1 p hp

theorem _root_.Fhe.NonePermits.pairs : ∀ {h0 h1 a0 a1 : List (Poly .ntt)} {q : List (Poly .ntt) × List (Poly .ntt)}, addPairs h0 h1 a0 a1 = some q → NonePermits h0 → NonePermits q.1
  | x :: h0, y :: h1, a :: a0, c :: a1, q, h, hl => by
    rw [addPairs] at h
    simp only [Option.bind_eq_bind, Option.bind_eq_some_iff] at h
    obtain ⟨u, hu, v, hv, w, hw, h⟩ := h
    obtain rfl : (u :: w.1, v :: w.2) = q := by simpa using h
    have ih := NonePermits.pairs hw (fun p hp => hl p (List.mem_cons_of_mem _ hp))
    intro p hp
    rcases List.mem_cons.1 hp with rfl | hp
    · rw [Poly.addAssign_vt hu, hl x (List.mem_cons_self ..)]; rfl
    · exact ih p hp
  | [], h1, a0, a1, q, h, hl => by
    obtain rfl : ([], h1) = q := by simpa [addPairs] using h
    exact hl
  | x :: h0, [], a0, a1, q, h, hl => by
    obtain rfl : (x :: h0, []) = q := by simpa [addPairs] using h
    exact hl
  | x :: h0, y :: h1, [], a1, q, h, hl => by
    obtain rfl : (x :: h0, y :: h1) = q := by simpa [addPairs] using h
    exact hl
  | x :: h0, y :: h1, a :: a0, [], q, h, hl => by
    obtain rfl : (x :: h0, y :: h1) = q := by simpa [addPairs] using h
    exact hl

theorem nttToShoup_vt {p : Poly .ntt} {q : Poly .nttShoup} (h : p.nttToShoup = some q) : q.vt = p.vt := by
  unfold Poly.nttToShoup at h
  rw [Option.bind_eq_bind, Option.bind_eq_some_iff] at h
  obtain ⟨p', h1, h⟩ := h
  unfold Poly.computeShoup at h1
  rw [Option.bind_eq_bind, Option.bind_eq_some_iff] at h1
  obtain ⟨t, -, h1⟩ := h1
  obtain rfl := Option.some.inj h1
  unfold Poly.fromParts at h
  rw [if_pos rfl] at h
  obtain rfl := Option.some.inj h
  rfl

theorem _root_.Fhe.NonePermits.shoup {l : List (Poly .ntt)} {q : List (Poly .nttShoup)} (h : l.mapM Poly.nttToShoup = some q) (hl : NonePermits l) : NonePermits q := by
  induction l generalizing q with
  | nil =>
    obtain rfl : [] = q := by simpa using h
    intro p hp; cases hp
  | cons x l ih =>
    rw [List.mapM_cons] at h
    simp only [Option.bind_eq_bind, Option.bind_eq_some_iff] at h
    obtain ⟨y, hy, q', hq, h⟩ := h
    obtain rfl : y :: q' = q := by simpa using h
    intro p hp
    rcases List.mem_cons.1 hp with rfl | hp
    · rw [nttToShoup_vt hy, hl x (List.mem_cons_self ..)]
    · exact ih hq (fun x hx => hl x (List.mem_cons_of_mem _ hx)) p hp

theorem _root_.Fhe.NonePermits.fold {α : Type} {f : List (Poly .ntt) × List (Poly .ntt) → α → Panics (List (Poly .ntt) × List (Poly .ntt))} {P : List (Poly .ntt) × List (Poly .ntt) → Prop}
    (hf : ∀ p x q, f p x = some q → P p → P q) : ∀ {l : List α} {p q : List (Poly .ntt) × List (Poly .ntt)}, l.foldlM f p = some q → P p → P q
  | [], p, q, h, hp => by
    obtain rfl : p = q := by simpa using h
    exact hp
  | x :: l, p, q, h, hp => by
    rw [List.foldlM_cons, Option.bind_eq_bind, Option.bind_eq_some_iff] at h
    obtain ⟨p', h1, h2⟩ := h
    exact NonePermits.fold hf h2 (hf _ _ _ h1 hp)

/-- C87: the shares of both rounds for a joint relinearization key do not permit variable time, and neither does any polynomial of the key, unlike the keys that one party
generates; so products relinearized with it do not either. -/
theorem C87_joint_relinearization_key {g : RelinKeyGenerator} {r1 R1 : RelinKeyShare} {r1s : List RelinKeyShare} {r2 : RelinKeyShare2} {r2s : List RelinKeyShare2} {k : RelinearizationKey}
    {rngs0 rngs1 : Nat → Nat → Nat} :
    (g.round1 b rngs0 rngs1 = Res.ok r1 → NonePermits r1.h0 ∧ NonePermits r1.h1) ∧
    (RelinKeyShare.aggregate (r1 :: r1s) = Res.ok R1 → NonePermits r1.h0 → NonePermits r1.h1 → NonePermits R1.h0 ∧ NonePermits R1.h1) ∧
    (g.round2 R1 rngs0 rngs1 = Res.ok r2 → NonePermits r2.h0 ∧ NonePermits r2.h1 ∧ r2.lastRound = some R1) ∧
    (RelinKeyShare2.aggregate (r2 :: r2s) = Res.ok k → NonePermits r2.h0 → r2.lastRound = some R1 → NonePermits R1.h1 → NonePermits k.ksk.c0 ∧ NonePermits k.ksk.c1) := by
  have hgen : ∀ {ctx : Context} {v : Nat} {f : Poly .ntt} {l q : List (Poly .ntt)} {rngs : Nat → Nat → Nat}, RelinKeyShare2.generate ctx v f l rngs = Res.ok q → NonePermits q := by
    intro ctx v f l q rngs h
    refine NonePermits.mapM h fun x _ p hp => ?_
    obtain ⟨_, -, hp⟩ := Res.bind_eq_ok.1 hp
    obtain ⟨y, hy, hp⟩ := Res.bind_eq_ok.1 hp
    rw [Poly.addAssign_vt (Res.lift_eq_ok.1 hp), Poly.mulAssign_vt (Res.lift_eq_ok.1 hy)]
    rfl
  refine ⟨fun h => ?_, fun h h0 h1 => ?_, fun h => ?_, fun h h0 h1 h2 => ?_⟩
  · unfold RelinKeyGenerator.round1 at h
    obtain ⟨_, -, h⟩ := Res.bind_eq_ok.1 h
    dsimp only at h
    split at h
    · cases h
    · obtain ⟨x, hx, h⟩ := Res.bind_eq_ok.1 h
      obtain ⟨y, hy, h⟩ := Res.bind_eq_ok.1 h
      rw [Res.pure_eq, Res.ok_inj] at h
      rw [← h]
      constructor
      · unfold RelinKeyShare.generateH0 at hx
        iterate 4 obtain ⟨_, -, hx⟩ := Res.bind_eq_ok.1 hx
        refine NonePermits.mapM hx fun x _ p hp => ?_
        iterate 4 obtain ⟨_, -, hp⟩ := Res.bind_eq_ok.1 hp
        obtain ⟨y, hy, hp⟩ := Res.bind_eq_ok.1 hp
        obtain ⟨z, hz, hp⟩ := Res.bind_eq_ok.1 hp
        rw [Poly.addAssign_vt (Res.lift_eq_ok.1 hp), Poly.addAssign_vt (Res.lift_eq_ok.1 hz), Poly.mulAssign_vt (Res.lift_eq_ok.1 hy)]
        rfl
      · unfold RelinKeyShare.generateH1 at hy
        iterate 2 obtain ⟨_, -, hy⟩ := Res.bind_eq_ok.1 hy
        refine NonePermits.mapM hy fun x _ p hp => ?_
        obtain ⟨_, -, hp⟩ := Res.bind_eq_ok.1 hp
        obtain ⟨y, hy, hp⟩ := Res.bind_eq_ok.1 hp
        rw [Poly.addAssign_vt (Res.lift_eq_ok.1 hp), Poly.mulAssign_vt (Res.lift_eq_ok.1 hy)]
        rfl
  · unfold RelinKeyShare.aggregate at h
    obtain ⟨q, hq, h⟩ := Res.bind_eq_ok.1 h
    rw [Res.pure_eq, Res.ok_inj] at h
    rw [← h]
    refine NonePermits.fold (P := fun p => NonePermits p.1 ∧ NonePermits p.2) (fun p x q h hp => ?_) (Res.lift_eq_ok.1 hq) ⟨h0, h1⟩
    simp only [Option.bind_eq_bind, Option.bind_eq_some_iff] at h
    obtain ⟨u, hu, v, hv, h⟩ := h
    obtain rfl : (u, v) = q := by simpa using h
    exact ⟨(NonePermits.zip hu hp.1).1, (NonePermits.zip hv hp.2).1⟩
  · unfold RelinKeyGenerator.round2 at h
    iterate 2 obtain ⟨_, -, h⟩ := Res.bind_eq_ok.1 h
    obtain ⟨x, hx, h⟩ := Res.bind_eq_ok.1 h
    obtain ⟨_, -, h⟩ := Res.bind_eq_ok.1 h
    obtain ⟨y, hy, h⟩ := Res.bind_eq_ok.1 h
    rw [Res.pure_eq, Res.ok_inj] at h
    rw [← h]
    exact ⟨hgen hx, hgen hy, rfl⟩
  · unfold RelinKeyShare2.aggregate at h
    obtain ⟨_, -, h⟩ := Res.bind_eq_ok.1 h
    rw [h1] at h
    dsimp only at h
    obtain ⟨q, hq, h⟩ := Res.bind_eq_ok.1 h
    obtain ⟨c, hc, h⟩ := Res.bind_eq_ok.1 h
    obtain ⟨c0, hc0, h⟩ := Res.bind_eq_ok.1 h
    obtain ⟨c1, hc1, h⟩ := Res.bind_eq_ok.1 h
    rw [Res.pure_eq, Res.ok_inj] at h
    rw [← h]
    have hp := NonePermits.fold (P := fun p => NonePermits p.1) (fun p x q h hp => NonePermits.pairs h hp) (Res.lift_eq_ok.1 hq) h0
    exact ⟨NonePermits.shoup (Res.lift_eq_ok.1 hc0) (NonePermits.zip (Res.lift_eq_ok.1 hc) hp).1, NonePermits.shoup (Res.lift_eq_ok.1 hc1) h2⟩

/-- With two parties at the parameters of `exCipher`: the joint public key permits variable time in its first part and the joint relinearization key forbids it; a plaintext
that both decrypt forbids it. -/
example : ∃ (share : Fin 2 → PublicKeyShare) (pk : PublicKey) (share' : Fin 2 → DecryptionShare) (pt' : Plaintext) (rk : RelinearizationKey) (r2 : Fin 2 → RelinKeyShare2), PublicKeyShare.aggregate (List.ofFn share) = Res.ok pk ∧
    pk.c.flags = [true, true] ∧ DecryptionShare.aggregate (List.ofFn share') = Res.ok pt' ∧ pt'.polyNtt.vt = false ∧ RelinKeyShare2.aggregate (List.ofFn r2) = Res.ok rk ∧ NonePermits rk.ksk.c0 ∧ NonePermits rk.ksk.c1 := by
  obtain ⟨par, sk, s, pt, pt', m, m', ct, ct', v, v', h, hd, ht, hm, hrel, hk, hs, e2, e2', em, em', f1, f1', f2, f2', f3, f3', f4, f4', f5, f6, h0, hvar⟩ := exCipher
  obtain ⟨n, hw, -⟩ := build_inv luckyBuild_ok h
  obtain ⟨p, hp⟩ : ∃ p, p ∈ ct.c := List.exists_mem_of_length_pos (by omega)
  have hval := (Encrypts.valid hw f2).2 p hp
  rw [f2.level_eq] at hval
  have hvt : p.vt = true := by
    have hx : ct.flags = [true, true] := SecretKey.tryEncrypt_flags f1
    have : p.vt ∈ ct.flags := List.mem_map.2 ⟨p, hp, rfl⟩
    rw [hx] at this
    simpa using this
  have hlen : par.moduli.length = 3 := by rw [hm]; rfl
  obtain ⟨share, pk, C1, share', pt'', g1, g2, g3, g4, g5, g6⟩ := C53_end_to_end luckyBuild_ok h hrel.count hrel.sum hrel.modulus (K := 2) (by decide) (sk := fun _ => sk) (s := fun _ => s) (fun _ => hk) (S := 2) (fun _ => hs)
    (crp := ⟨p⟩) hval.2 hval.1 e2 (rng := fun _ => exRng) (rng' := fun _ => exRng) (fun _ => exRng_ok) (fun _ => exRng_ok) exRng_ok exRng_ok exRng_ok rfl (by rw [h0, ht, hd, hvar]; decide)
  obtain ⟨gen, r1, R1, r2, rk, k1, k2, k3, k4, k5, k6, -⟩ := C52_relinearization_key luckyBuild_ok h (K := 2) (by decide) (sk := fun _ => sk) (s := fun _ => s) (fun _ => hk) (S := 2) (fun _ => hs) (by omega)
    (crp := List.replicate 3 ⟨p⟩) (by rw [hlen]; rfl) (fun x hx => by rw [(List.mem_replicate.1 hx).2]; exact hval) (rngU := fun _ => exRng) (fun _ => exRng_ok) (rng0 := fun _ _ => exRng) (rng1 := fun _ _ => exRng)
    (rng2 := fun _ _ => exRng) (rng3 := fun _ _ => exRng) (fun _ _ => exRng_ok) (fun _ _ => exRng_ok) (fun _ _ => exRng_ok) (fun _ _ => exRng_ok)
  have a0 := g2 1
  have a1 := g5 1
  have a3 := k3 1
  have a5 := k5 1
  simp only [Equiv.Perm.coe_one, id] at a0 a1 a3 a5
  have hsh : ∀ k, (share k).p0Share.vt = true ∧ (share k).crp = ⟨p⟩ := fun k => (C87_joint_public_key (par := par) (level := 0) (rows := []) (pk := pk) (shares := [])).2.1 (g1 k)
  have q1 : ∀ k, NonePermits (r1 k).h0 ∧ NonePermits (r1 k).h1 := fun k => (C87_joint_relinearization_key (r1s := []) (R1 := R1) (r2 := r2 0) (r2s := []) (k := rk)).1 (k2 k)
  have a3' := a3
  have a5' := a5
  have a0' := a0
  rw [List.ofFn_succ] at a3' a5' a0'
  have q2 := (C87_joint_relinearization_key (b := luckyBuild) (g := gen 0) (r2 := r2 0) (r2s := []) (k := rk) (rngs0 := fun _ => exRng) (rngs1 := fun _ => exRng)).2.1 a3' (q1 _).1 (q1 _).2
  have q3 := fun k => (C87_joint_relinearization_key (b := luckyBuild) (r1 := r1 0) (r1s := []) (r2s := []) (k := rk)).2.2.1 (k4 k)
  have q4 := (C87_joint_relinearization_key (b := luckyBuild) (g := gen 0) (r1 := r1 0) (r1s := []) (rngs0 := fun _ => exRng) (rngs1 := fun _ => exRng)).2.2.2 a5' (q3 _).1 (q3 _).2.2 q2.2
  refine ⟨share, pk, share', pt'', rk, r2, a0, ?_, a1, ?_, a5, q4⟩
  · rw [(C87_joint_public_key (par := par) (level := 0) (rows := []) (sk := sk) (rng := exRng) (crp := ⟨p⟩)).2.2 a0', (hsh _).2, ← List.ofFn_succ, hvt]
    congr 1
    rw [List.all_eq_true]
    intro x hx
    obtain ⟨k, rfl⟩ := (List.mem_ofFn' _ _).1 hx
    exact (hsh k).1
  · exact (C87_switch_secret (sk := sk) (sk' := sk) (ct := ct) (rng := exRng) (r := ct) (share := (share' 0).sksShare) (ds := share' 0) (shares := [])).2.2.2 a1

end Fhe.Props
