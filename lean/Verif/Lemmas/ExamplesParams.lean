import Verif.Props.Defaults
/-!
# The predefined parameters that the introductory examples use
-/
namespace Fhe.Props
open ParamsBuilder

variable {b : Build}

theorem largest_16_1024 : Largest 1024 16 61441 := by
  refine ⟨⟨by norm_num, by decide, by decide, by decide⟩, fun t' ⟨h1, h2, h3, h4⟩ => ?_⟩
  by_contra hc
  obtain ⟨k, rfl⟩ : ∃ k, t' = 2048 * k + 1 := ⟨t' / 2048, by omega⟩
  have : 30 < k := by omega
  have : k < 32 := by omega
  interval_cases k; revert h1; norm_num

theorem largest_16_2048 : Largest 2048 16 61441 := by
  refine ⟨⟨by norm_num, by decide, by decide, by decide⟩, fun t' ⟨h1, h2, h3, h4⟩ => ?_⟩
  by_contra hc
  obtain ⟨k, rfl⟩ : ∃ k, t' = 4096 * k + 1 := ⟨t' / 4096, by omega⟩
  omega

theorem largest_16_4096 : Largest 4096 16 40961 := by
  refine ⟨⟨by norm_num, by decide, by decide, by decide⟩, fun t' ⟨h1, h2, h3, h4⟩ => ?_⟩
  by_contra hc
  obtain ⟨k, rfl⟩ : ∃ k, t' = 8192 * k + 1 := ⟨t' / 8192, by omega⟩
  have : 5 < k := by omega
  have : k < 8 := by omega
  interval_cases k <;> revert h1 <;> norm_num

theorem none_16_8192 (t : Nat) : ¬ FitsSize 8192 16 t := by
  rintro ⟨h1, h2, h3, h4⟩
  obtain ⟨k, rfl⟩ : ∃ k, t = 16384 * k + 1 := ⟨t / 16384, by omega⟩
  have : 1 < k := by omega
  have : k < 4 := by omega
  interval_cases k <;> revert h1 <;> norm_num

theorem none_16_16384 (t : Nat) : ¬ FitsSize 16384 16 t := by
  rintro ⟨h1, h2, h3, h4⟩
  obtain ⟨k, rfl⟩ : ∃ k, t = 32768 * k + 1 := ⟨t / 32768, by omega⟩
  have : k = 1 := by omega
  subst this
  revert h1; norm_num

theorem largest_20_1024 : Largest 1024 20 1038337 := by
  refine ⟨⟨by norm_num, by decide, by decide, by decide⟩, fun t' ⟨h1, h2, h3, h4⟩ => ?_⟩
  by_contra hc
  obtain ⟨k, rfl⟩ : ∃ k, t' = 2048 * k + 1 := ⟨t' / 2048, by omega⟩
  have : 507 < k := by omega
  have : k < 512 := by omega
  interval_cases k <;> revert h1 <;> norm_num

theorem largest_20_2048 : Largest 2048 20 1032193 := by
  refine ⟨⟨by norm_num, by decide, by decide, by decide⟩, fun t' ⟨h1, h2, h3, h4⟩ => ?_⟩
  by_contra hc
  obtain ⟨k, rfl⟩ : ∃ k, t' = 4096 * k + 1 := ⟨t' / 4096, by omega⟩
  have : 252 < k := by omega
  have : k < 256 := by omega
  interval_cases k <;> revert h1 <;> norm_num

theorem largest_20_4096 : Largest 4096 20 1032193 := by
  refine ⟨⟨by norm_num, by decide, by decide, by decide⟩, fun t' ⟨h1, h2, h3, h4⟩ => ?_⟩
  by_contra hc
  obtain ⟨k, rfl⟩ : ∃ k, t' = 8192 * k + 1 := ⟨t' / 8192, by omega⟩
  have : 126 < k := by omega
  have : k < 128 := by omega
  interval_cases k; revert h1; norm_num

theorem largest_20_8192 : Largest 8192 20 1032193 := by
  refine ⟨⟨by norm_num, by decide, by decide, by decide⟩, fun t' ⟨h1, h2, h3, h4⟩ => ?_⟩
  by_contra hc
  obtain ⟨k, rfl⟩ : ∃ k, t' = 16384 * k + 1 := ⟨t' / 16384, by omega⟩
  omega

theorem largest_20_16384 : Largest 16384 20 786433 := by
  refine ⟨⟨by norm_num, by decide, by decide, by decide⟩, fun t' ⟨h1, h2, h3, h4⟩ => ?_⟩
  by_contra hc
  obtain ⟨k, rfl⟩ : ∃ k, t' = 32768 * k + 1 := ⟨t' / 32768, by omega⟩
  have : 24 < k := by omega
  have : k < 32 := by omega
  interval_cases k <;> revert h1 <;> norm_num

theorem Largest.unique {N bits t t' : Nat} (h : Largest N bits t) (h' : Largest N bits t') : t = t' := le_antisymm (h'.2 _ h.1) (h.2 _ h'.1)

open Classical in
theorem lines_20 : defaultTable.filter (fun e => decide (Serves 20 e)) = defaultTable := by
  rw [List.filter_eq_self]
  intro e he
  rw [decide_eq_true_eq]
  simp only [defaultTable, List.mem_cons, List.not_mem_nil, or_false] at he
  rcases he with rfl | rfl | rfl | rfl | rfl
  · exact serves_of (by decide) (by decide) largest_20_1024 (by decide) (by decide)
  · exact serves_of (by decide) (by decide) largest_20_2048 (by decide) (by decide)
  · exact serves_of (by decide) (by decide) largest_20_4096 (by decide) (by decide)
  · exact serves_of (by decide) (by decide) largest_20_8192 (by decide) (by decide)
  · exact serves_of (by decide) (by decide) largest_20_16384 (by decide +kernel) (by decide)

open Classical in
theorem lines_16 : defaultTable.filter (fun e => decide (Serves 16 e)) = defaultTable.take 3 := by
  have h1 : Serves 16 (1024, [0x7e00001]) := serves_of (by decide) (by decide) largest_16_1024 (by decide) (by decide)
  have h2 : Serves 16 (2048, [0x3fffffff000001]) := serves_of (by decide) (by decide) largest_16_2048 (by decide) (by decide)
  have h3 : Serves 16 (4096, [0xffffee001, 0xffffc4001, 0x1ffffe0001]) := serves_of (by decide) (by decide) largest_16_4096 (by decide) (by decide)
  have h4 : ∀ l, ¬ Serves 16 (8192, l) := fun l ⟨_, _, t, ht, _⟩ => none_16_8192 t ht.1
  have h5 : ∀ l, ¬ Serves 16 (16384, l) := fun l ⟨_, _, t, ht, _⟩ => none_16_16384 t ht.1
  unfold defaultTable
  rw [List.filter_cons_of_pos (by simpa using h1), List.filter_cons_of_pos (by simpa using h2), List.filter_cons_of_pos (by simpa using h3), List.filter_cons_of_neg (by simpa using h4 _),
    List.filter_cons_of_neg (by simpa using h5 _)]
  rfl

/-- One of the predefined parameters. -/
theorem default_at (hb : b.OK) (hl : b.Lucky) {bits N t : Nat} {q : List Nat} {l : List BfvParameters} (h1 : 1 ≤ bits) (h2 : bits < 64) (hdef : defaultParameters128 b bits = Res.ok l) {k : Nat}
    (hk : (l.map fun par => (par.degree, par.moduli))[k]? = some (N, q)) (ht : Largest N bits t) :
    ∃ par, l[k]? = some par ∧ par.degree = N ∧ par.moduli = q ∧ par.variance = 10 ∧ par.plaintext.value = t ∧
      build b (({} : ParamsBuilder).setDegree N |>.setPlaintext t |>.setModuli q) = Res.ok par := by
  rw [List.getElem?_map, Option.map_eq_some_iff] at hk
  obtain ⟨par, e1, e2⟩ := hk
  obtain ⟨rfl, rfl⟩ := Prod.ext_iff.1 e2
  obtain ⟨l', f1, -, -, f2⟩ := C31_defaults_exact hb hl h1 h2
  have hmem := List.mem_of_getElem? e1
  have : l' = l := by
    rw [hdef] at f1
    split at f1
    · exact absurd f1.symm Res.err_ne_ok
    · exact (Res.ok_inj.1 f1).symm
  subst this
  obtain ⟨g1, g2⟩ := f2 par hmem
  have hv := g1.unique ht
  have hbd := C31_defaults_build hb hdef par hmem
  rw [hv] at hbd
  exact ⟨par, e1, rfl, rfl, g2, hv, hbd⟩

/-- The predefined parameters for plaintext moduli of 16 bits, third set. -/
theorem default_16 (hb : b.OK) (hl : b.Lucky) : ∃ l par, defaultParameters128 b 16 = Res.ok l ∧ l[2]? = some par ∧ par.degree = 4096 ∧ par.moduli = [0xffffee001, 0xffffc4001, 0x1ffffe0001] ∧ par.variance = 10 ∧
    par.plaintext.value = 40961 ∧ build b (({} : ParamsBuilder).setDegree 4096 |>.setPlaintext 40961 |>.setModuli [0xffffee001, 0xffffc4001, 0x1ffffe0001]) = Res.ok par := by
  obtain ⟨l, e1, e2⟩ := C31_defaults_lines hb hl (bits := 16) (by decide) (by decide) ⟨_, by decide, serves_of (e := (1024, [0x7e00001])) (by decide) (by decide) largest_16_1024 (by decide) (by decide)⟩
  rw [lines_16] at e2
  obtain ⟨par, h⟩ := default_at hb hl (by decide) (by decide) e1 (k := 2) (by rw [e2]; rfl) largest_16_4096
  exact ⟨l, par, e1, h⟩

/-- The predefined parameters for plaintext moduli of 20 bits, third and fourth set. -/
theorem default_20 (hb : b.OK) (hl : b.Lucky) : ∃ l par par', defaultParameters128 b 20 = Res.ok l ∧
    (l[2]? = some par ∧ par.degree = 4096 ∧ par.moduli = [0xffffee001, 0xffffc4001, 0x1ffffe0001] ∧ par.variance = 10 ∧ par.plaintext.value = 1032193 ∧
      build b (({} : ParamsBuilder).setDegree 4096 |>.setPlaintext 1032193 |>.setModuli [0xffffee001, 0xffffc4001, 0x1ffffe0001]) = Res.ok par) ∧
    (l[3]? = some par' ∧ par'.degree = 8192 ∧ par'.moduli = [0x7fffffd8001, 0x7fffffc8001, 0xfffffffc001, 0xffffff6c001, 0xfffffebc001] ∧ par'.variance = 10 ∧ par'.plaintext.value = 1032193 ∧
      build b (({} : ParamsBuilder).setDegree 8192 |>.setPlaintext 1032193 |>.setModuli [0x7fffffd8001, 0x7fffffc8001, 0xfffffffc001, 0xffffff6c001, 0xfffffebc001]) = Res.ok par') := by
  obtain ⟨l, e1, e2⟩ := C31_defaults_lines hb hl (bits := 20) (by decide) (by decide) ⟨_, by decide, serves_of (e := (1024, [0x7e00001])) (by decide) (by decide) largest_20_1024 (by decide) (by decide)⟩
  rw [lines_20] at e2
  obtain ⟨par, h⟩ := default_at hb hl (by decide) (by decide) e1 (k := 2) (by rw [e2]; rfl) largest_20_4096
  obtain ⟨par', h'⟩ := default_at hb hl (by decide) (by decide) e1 (k := 3) (by rw [e2]; rfl) largest_20_8192
  exact ⟨l, par, par', e1, h, h'⟩

end Fhe.Props
