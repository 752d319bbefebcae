import Verif.Lemmas.RqSer
/-! Reading arbitrary polynomial messages. -/
namespace Fhe
open NttOperator Nega

theorem Modulus.nbits_bounds {m : Modulus} (h : m.WF) : 0 < m.nbits ∧ m.nbits ≤ 62 ∧ 2 ^ m.nbits ≤ 2 * m.p := by
  have h2 := h.two_le
  have hlt := h.lt
  have hn : m.nbits = bitLen (m.p - 1) := by
    have : bitLen (m.p - 1) ≤ 62 := bitLen_le_iff.2 (by omega)
    unfold Modulus.nbits lz64; omega
  have h0 : 0 < m.nbits := by rw [hn]; exact bitLen_pos (by omega)
  refine ⟨h0, by rw [hn]; exact bitLen_le_iff.2 (by omega), ?_⟩
  by_contra hc
  have : bitLen (m.p - 1) ≤ m.nbits - 1 := by
    refine bitLen_le_iff.2 ?_
    have : 2 ^ m.nbits = 2 * 2 ^ (m.nbits - 1) := by rw [← pow_succ']; congr 1; omega
    omega
  omega

/-- A row of the expected length is read, whatever its bytes are. -/
theorem Modulus.deserialize_total {m : Modulus} (h : m.WF) {N : Nat} (h8 : N % 8 = 0) (hN : N < 2 ^ 32) {bytes : List Nat} (hb : ∀ x ∈ bytes, x < 2 ^ 8)
    (hl : bytes.length = m.nbits * N / 8) : ∃ a, m.deserializeVec bytes = some a ∧ a.length = N ∧ ∀ x ∈ a, x < 2 * m.p := by
  obtain ⟨h0, h62, h2⟩ := Modulus.nbits_bounds h
  have e8 : bytes.length * 8 = m.nbits * N := by
    rw [hl]; exact Nat.div_mul_cancel (Dvd.dvd.mul_left (Nat.dvd_of_mod_eq_zero h8) _)
  have hlt : bytes.length * 8 < 2 ^ 64 := by rw [e8]; nlinarith
  obtain ⟨a, e, hr⟩ := (Props.C10_transcode_bytes h0 (by omega)).2 bytes hb hlt
  refine ⟨a, e, ?_, fun x hx => lt_of_lt_of_le (hr.1 x hx) h2⟩
  rw [hr.2.1, e8, Nat.add_sub_assoc h0, Nat.mul_add_div h0, Nat.div_eq_of_lt (by omega), Nat.add_zero]

namespace Poly
variable {b : Build} {c : Context} {n : Nat} {r : Rep} {vt vt' : Bool}

theorem parseRows_total {N : Nat} (h8 : N % 8 = 0) (hN : N < 2 ^ 32) {bytes : List Nat} (hb : ∀ x ∈ bytes, x < 2 ^ 8) (ops : List NttOperator)
    (hw : ∀ op ∈ ops, op.p.WF) (k : Nat) (hk : k + ((ops.map fun op => op.p.nbits * N / 8)).sum ≤ bytes.length) :
    ∃ rows, parseRows N bytes (ops.map (·.p)) k = some rows.flatten ∧
      List.Forall₂ (fun row op => row.length = N ∧ ∀ x ∈ row, x < 2 * op.p.p) rows ops := by
  induction ops generalizing k with
  | nil => exact ⟨[], rfl, .nil⟩
  | cons op ops ih =>
    rw [List.map_cons, List.sum_cons] at hk
    obtain ⟨a, e1, e2, e3⟩ := Modulus.deserialize_total (hw op (by simp)) h8 hN (bytes := (bytes.drop k).take (op.p.nbits * N / 8))
      (fun x hx => hb x (List.mem_of_mem_drop (List.mem_of_mem_take hx))) (by rw [List.length_take, List.length_drop]; omega)
    obtain ⟨rows, f1, f2⟩ := ih (fun o ho => hw o (by simp [ho])) (k + op.p.nbits * N / 8) (by omega)
    refine ⟨a :: rows, ?_, .cons ⟨e2, e3⟩ f2⟩
    rw [List.map_cons, parseRows]
    unfold Modulus.serializationLength
    simp only [check_eq h8, Option.bind_eq_bind, Option.bind_some, Option.pure_def]
    rw [check_eq (by omega), Option.bind_some, e1, Option.bind_some, f1]
    rfl

/-- Transforming unreduced residues gives the transform of a well-formed object. -/
theorem zipRows_fwd_lazy (h : c.WF b n) {rows : List (List Nat)}
    (hr : List.Forall₂ (fun row op => row.length = c.degree ∧ ∀ x ∈ row, x < 2 * op.p.p) rows c.ops) (vt : Bool) :
    ∃ f : c.Elem, zipRows (fwdRow vt) rows c.ops = some (c.ops.map fun op => encRow .ntt f op) ∧
      List.Forall₂ (fun row (op : NttOperator) => row.map (· % op.p.p) = encRow .powerBasis f op) rows c.ops := by
  have key : ∀ (rows : List (List Nat)) (ops : List NttOperator), (∀ op ∈ ops, op ∈ c.ops) →
      List.Forall₂ (fun row (op : NttOperator) => row.length = c.degree ∧ ∀ x ∈ row, x < 2 * op.p.p) rows ops →
      ∃ rows', List.Forall₂ (fun row (op : NttOperator) => row.length = c.degree ∧ ∀ x ∈ row, x < op.p.p) rows' ops ∧
        zipRows (fwdRow vt) rows ops = zipRows (fwdRow vt) rows' ops ∧ rows' = List.zipWith (fun row (op : NttOperator) => row.map (· % op.p.p)) rows ops := by
    intro rows ops hs hr
    induction hr with
    | nil => exact ⟨[], .nil, rfl, rfl⟩
    | @cons row op rows ops h1 h2 ih =>
      obtain ⟨rows', f1, f2, f3⟩ := ih fun o ho => hs o (by simp [ho])
      obtain ⟨ω, ωi, hw⟩ := h.level.ops op (hs op (by simp))
      have hp := hw.modulus.pos
      refine ⟨row.map (· % op.p.p) :: rows', .cons ⟨by simpa using h1.1, fun x hx => ?_⟩ f1, ?_, by rw [f3]; rfl⟩
      · obtain ⟨y, -, rfl⟩ := List.mem_map.1 hx
        exact Nat.mod_lt _ hp
      · have hl : row.length = op.size := by rw [h1.1, hw.size, h.level.degree]
        have hl' : (row.map (· % op.p.p)).length = op.size := by simpa using hl
        have b1 : ∀ x ∈ row, x < 4 * op.p.p := fun x hx => by have := h1.2 x hx; omega
        have b2 : ∀ x ∈ row.map (· % op.p.p), x < 4 * op.p.p := fun x hx => by
          obtain ⟨y, -, rfl⟩ := List.mem_map.1 hx
          have := Nat.mod_lt y hp; omega
        have e : fwdRow vt row op = fwdRow vt (row.map (· % op.p.p)) op := by
          unfold fwdRow
          rw [forward_eq hw hl b1, forward_eq hw hl' b2, forwardVt_eq hw hl b1, forwardVt_eq hw hl' b2]
          have : fwdVal op.p.p n ω row = fwdVal op.p.p n ω (row.map (· % op.p.p)) := by
            unfold fwdVal
            refine tab_congr fun x _ => ?_
            congr 2
            funext t
            rw [List.getD_eq_getElem?_getD, List.getD_eq_getElem?_getD, List.getElem?_map]
            cases row[t]? <;> simp
          rw [this]
        rw [zipRows, zipRows, e, f2]
  obtain ⟨rows', f1, f2, f3⟩ := key rows c.ops (fun _ h => h) hr
  obtain ⟨f, rfl⟩ := exists_rows h .powerBasis f1
  refine ⟨f, by rw [f2, zipRows_fwd h], List.forall₂_iff_get.2 ⟨hr.length_eq, fun i h1 h2 => ?_⟩⟩
  have e := congrArg (fun l : List (List Nat) => l[i]?) f3
  simp only [List.getElem?_map, List.getElem?_zipWith, List.getElem?_eq_getElem h1, List.getElem?_eq_getElem h2, Option.map_some, Option.some.injEq] at e
  exact e.symm

/-- Reading any message never panics; what is read in the `Ntt` and `NttShoup` representations is well formed. -/
theorem fromRq_total (h : c.WF b n) {m : RqMsg} (hb : ∀ x ∈ m.coefficients, x < 2 ^ 8) (hd : m.degree < 2 ^ 32) (r : Rep) (vt : Bool) :
    (∃ e, fromRq r m c vt = some (.error e)) ∨ ∃ p, fromRq r m c vt = some (.ok p) ∧ p.ctx = c ∧ p.vt = vt ∧ p.hasLazy = false ∧
      (r ≠ .powerBasis → p.Valid) := by
  have := h.neZero
  have hwm : ∀ op ∈ c.ops, op.p.WF := fun op hop => by obtain ⟨ω, ωi, hw⟩ := h.level.ops op hop; exact hw.modulus
  have hql : c.q.length = c.moduli.length := by rw [h.level.q, h.level.moduli, List.length_map, List.length_map]
  unfold fromRq
  have hp : (∃ e, parseProto m c = some (.error e)) ∨ ∃ r' rows, parseProto m c = some (.ok (r', rows.flatten)) ∧ m.degree % 8 = 0 ∧
      List.Forall₂ (fun row (op : NttOperator) => row.length = m.degree ∧ ∀ x ∈ row, x < 2 * op.p.p) rows c.ops := by
    unfold parseProto
    generalize (if m.representation = 1 then some Rep.powerBasis else if m.representation = 2 then some .ntt
      else if m.representation = 3 then some .nttShoup else none) = o
    cases o with
    | none => exact .inl ⟨_, rfl⟩
    | some r' =>
      simp only
      by_cases h1 : m.degree % 8 ≠ 0 ∨ m.degree < 8
      · rw [if_pos h1]; exact .inl ⟨_, rfl⟩
      · rw [if_neg h1]
        have h8 : m.degree % 8 = 0 := by omega
        have hl : (c.q.mapM fun qi => qi.serializationLength m.degree) = some (c.q.map fun qi => qi.nbits * m.degree / 8) := by
          refine mapM_eq_some_map fun x _ => ?_
          unfold Modulus.serializationLength
          rw [check_eq h8]; rfl
        rw [hl]
        simp only [Option.bind_eq_bind, Option.bind_some]
        by_cases h2 : m.coefficients.length ≠ (c.q.map fun qi => qi.nbits * m.degree / 8).sum
        · rw [if_pos h2]; exact .inl ⟨_, rfl⟩
        · rw [if_neg h2]
          rw [not_not] at h2
          rw [h.level.q, List.map_map] at h2
          obtain ⟨rows, e1, e2⟩ := parseRows_total h8 hd hb c.ops hwm 0 (by rw [h2]; simp [Function.comp_def])
          rw [h.level.q, e1]
          exact .inr ⟨r', rows, rfl, h8, e2⟩
  rcases hp with ⟨e, hp⟩ | ⟨r', rows, hp, h8, hr⟩
  · rw [hp]; exact .inl ⟨_, rfl⟩
  rw [hp]
  simp only [Option.bind_eq_bind, Option.bind_some]
  by_cases hrr : r' ≠ r
  · rw [if_pos hrr]; exact .inl ⟨_, rfl⟩
  rw [if_neg hrr]
  have hlen : rows.length = c.q.length := by rw [hr.length_eq, h.level.q, List.length_map]
  have hcol : ∀ row ∈ rows, row.length = m.degree := by
    intro row hrow
    obtain ⟨i, hi, rfl⟩ := List.getElem_of_mem hrow
    exact ((List.forall₂_iff_get.1 hr).2 i hi (by rw [← hr.length_eq]; exact hi)).1
  have hfl : rows.flatten.length = c.q.length * m.degree := by rw [length_flatten_rows _ hcol, hlen]
  have hq0 : 0 < c.q.length := by
    rw [h.level.q, List.length_map]; exact List.length_pos_iff.2 h.level.ne_nil
  by_cases hd' : m.degree = c.degree
  · -- full rows
    have hraw : tryFromU64 rows.flatten c vt = some (.ok { ctx := c, vt, coeffs := rows, shoup := none, hasLazy := false }) := by
      unfold tryFromU64
      rw [if_pos (by rw [hfl, hd']), ← hlen, fromShapeVec_flatten _ (by rw [← hd']; exact hcol)]
      rfl
    rw [hraw, Option.bind_some]
    simp only
    rw [hd'] at hr
    obtain ⟨f, hf, -⟩ := zipRows_fwd_lazy h hr vt
    cases r with
    | powerBasis => exact .inr ⟨_, rfl, rfl, rfl, rfl, fun h => absurd rfl h⟩
    | ntt =>
      have e : ofPowerBasis .ntt { ctx := c, vt, coeffs := rows, shoup := none, hasLazy := false } = some (enc c .ntt vt f) := by
        unfold ofPowerBasis intoNtt nttForward
        simp only [hf, Option.bind_eq_bind, Option.bind_some]
        rfl
      rw [e]
      exact .inr ⟨_, rfl, rfl, rfl, rfl, fun _ => valid_enc h f⟩
    | nttShoup =>
      have e : ofPowerBasis .nttShoup { ctx := c, vt, coeffs := rows, shoup := none, hasLazy := false } = some (enc c .nttShoup vt f) := by
        unfold ofPowerBasis intoNttShoup nttForward
        simp only [hf, Option.bind_eq_bind, Option.bind_some, Option.pure_def]
        rw [computeShoup_rows h f (r := .ntt) _ rfl rfl]
        rfl
      rw [e]
      exact .inr ⟨_, rfl, rfl, rfl, rfl, fun _ => valid_enc h f⟩
  · have hne : rows.flatten.length ≠ c.moduli.length * c.degree := by
      rw [hfl, ← hql]
      exact fun e => hd' (Nat.eq_of_mul_eq_mul_left hq0 e)
    by_cases hs : rows.flatten.length ≤ c.degree
    · rw [tryFromU64_short h hs hne (fun x hx => ?_), Option.bind_some]
      · simp only
        rw [ofPowerBasis_enc h]
        exact .inr ⟨_, rfl, rfl, rfl, rfl, fun _ => valid_enc h _⟩
      · obtain ⟨row, hrow, hx⟩ := List.mem_flatten.1 hx
        obtain ⟨i, hi, rfl⟩ := List.getElem_of_mem hrow
        have hi' : i < c.ops.length := by rw [← hr.length_eq]; exact hi
        have h1 := ((List.forall₂_iff_get.1 hr).2 i hi hi').2 x hx
        have h2 := (hwm _ (List.getElem_mem hi')).lt
        simp only [List.get_eq_getElem] at h1
        omega
    · rw [tryFromU64_long h hs hne]
      exact .inl ⟨_, rfl⟩

/-- Reading any bytes never panics. -/
theorem fromBytes_total (h : c.WF b n) {bytes : List Nat} (hb : IsBytes bytes) (r : Rep) :
    (∃ e, fromBytes r bytes c = some (.error e)) ∨ ∃ p, fromBytes r bytes c = some (.ok p) ∧ p.ctx = c ∧ p.vt = false ∧ p.hasLazy = false ∧
      (r ≠ .powerBasis → p.Valid) := by
  unfold fromBytes
  cases hm : RqMsg.decode bytes with
  | none => exact .inl ⟨_, rfl⟩
  | some m =>
    obtain ⟨h1, h2⟩ := RqMsg.decode_spec hm hb
    exact fromRq_total h h1 h2 r false

end Poly
end Fhe
