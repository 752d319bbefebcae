import Verif.Spec.InPlace
/-!
# Rules for operations in place
-/
namespace Fhe
namespace InPlace
variable {σ α β : Type}

theorem exec_pure (a : α) (s : σ) : (pure a : InPlace σ α).exec s = (.ok a, s) := rfl
theorem exec_throw (f : Failure) (s : σ) : (throw f : InPlace σ α).exec s = (.error f, s) := rfl
theorem exec_get (s : σ) : (get : InPlace σ σ).exec s = (.ok s, s) := rfl
theorem exec_set (s' s : σ) : (set s' : InPlace σ PUnit).exec s = (.ok (), s') := rfl
theorem exec_modify (f : σ → σ) (s : σ) : (modify f : InPlace σ PUnit).exec s = (.ok (), f s) := rfl

theorem exec_bind (x : InPlace σ α) (f : α → InPlace σ β) (s : σ) :
    (x >>= f).exec s = match x.exec s with
      | (.ok a, s') => (f a).exec s'
      | (.error e, s') => (.error e, s') := by
  show (ExceptT.bind x f).run.run s = _
  unfold ExceptT.bind ExceptT.bindCont exec
  simp only [ExceptT.run, ExceptT.mk, StateT.run, bind, StateT.bind]
  rcases h : x s with ⟨_ | _, _⟩ <;> rfl

theorem exec_bind_ok {x : InPlace σ α} {f : α → InPlace σ β} {s s' : σ} {a : α} (h : x.exec s = (.ok a, s')) : (x >>= f).exec s = (f a).exec s' := by
  rw [exec_bind, h]

theorem exec_bind_error {x : InPlace σ α} {f : α → InPlace σ β} {s s' : σ} {e : Failure} (h : x.exec s = (.error e, s')) : (x >>= f).exec s = (.error e, s') := by
  rw [exec_bind, h]

theorem exec_eval_ok (a : α) (s : σ) : (eval (Res.ok a) : InPlace σ α).exec s = (.ok a, s) := rfl
theorem exec_eval_err (e : FheError) (s : σ) : (eval (Res.err e) : InPlace σ α).exec s = (.error (.err e), s) := rfl
theorem exec_eval_panic (s : σ) : (eval Res.panic : InPlace σ α).exec s = (.error .panic, s) := rfl

/-- A function evaluated before anything is changed. -/
theorem matches_eval_bind {r : Res α} {x : α → InPlace σ Unit} {k : α → Res σ} {s : σ} (h : ∀ a, r = Res.ok a → Matches (x a) s (k a)) : Matches (eval r >>= x) s (r >>= k) := by
  rcases Res.cases r with ⟨a, rfl⟩ | ⟨e, rfl⟩ | rfl
  · have := h a rfl
    unfold Matches at this ⊢
    rw [Res.ok_bind, exec_bind, exec_eval_ok]
    exact this
  · unfold Matches
    rw [Res.err_bind, exec_bind, exec_eval_err]
    exact ⟨fun _ h => absurd h Res.err_ne_ok, fun e' h => by rw [Res.err_inj] at h; rw [h], fun h => by cases h⟩
  · unfold Matches
    rw [Res.panic_bind, exec_bind, exec_eval_panic]
    exact ⟨fun _ h => absurd h Res.panic_ne_ok, fun e' h => (by cases h), fun _ => rfl⟩

theorem matches_get_bind {x : σ → InPlace σ Unit} {r : Res σ} {s : σ} (h : Matches (x s) s r) : Matches (get >>= x) s r := by
  unfold Matches
  rw [exec_bind, exec_get]
  exact h

theorem matches_throw (e : FheError) (s : σ) : Matches (throw (.err e)) s (Res.err e) :=
  ⟨fun _ h => absurd h Res.err_ne_ok, fun e' h => by rw [Res.err_inj] at h; rw [h]; rfl, fun h => by cases h⟩

theorem matches_ok {x : InPlace σ Unit} {s s' : σ} (h : x.exec s = (.ok (), s')) : Matches x s (Res.ok s') :=
  ⟨fun _ h' => by rw [Res.ok_inj] at h'; rw [← h', h], fun _ h' => absurd h'.symm Res.err_ne_ok, fun h' => absurd h'.symm Res.panic_ne_ok⟩

theorem matches_assert_bind {c : Prop} [Decidable c] {x : InPlace σ Unit} {k : Res σ} {s : σ} (h : c → Matches x s k) : Matches (assert c >>= fun _ => x) s (lift (check c) >>= fun _ => k) := by
  refine matches_eval_bind fun _ hc => h ?_
  unfold check at hc
  split at hc
  · assumption
  · exact absurd hc Res.panic_ne_ok

/-- Where the function succeeds, the operation does. -/
theorem Matches.ok {x : InPlace σ Unit} {s s' : σ} {r : Res σ} (h : Matches x s r) (hr : r = Res.ok s') : x.exec s = (.ok (), s') := h.1 s' hr

theorem atomic_of_ok {x : InPlace σ Unit} {s s' : σ} (h : x.exec s = (.ok (), s')) : Atomic x s := fun f t e => by rw [h] at e; simp at e

theorem atomic_throw (f : Failure) (s : σ) : Atomic (throw f) s := fun _ _ e => by rw [exec_throw] at e; simp at e; exact e.2.symm

theorem atomic_get_bind {x : σ → InPlace σ Unit} {s : σ} (h : Atomic (x s) s) : Atomic (get >>= x) s := fun f t e => by
  rw [exec_bind, exec_get] at e
  exact h f t e

theorem atomic_eval_bind {r : Res α} {x : α → InPlace σ Unit} {s : σ} (h : ∀ a, r = Res.ok a → Atomic (x a) s) : Atomic (eval r >>= x) s := fun f t e => by
  rcases Res.cases r with ⟨a, rfl⟩ | ⟨e', rfl⟩ | rfl
  · rw [exec_bind, exec_eval_ok] at e
    exact h a rfl f t e
  · rw [exec_bind, exec_eval_err] at e
    simp at e; exact e.2.symm
  · rw [exec_bind, exec_eval_panic] at e
    simp at e; exact e.2.symm

theorem atomic_assert_bind {c : Prop} [Decidable c] {x : InPlace σ Unit} {s : σ} (h : c → Atomic x s) : Atomic (assert c >>= fun _ => x) s := by
  refine atomic_eval_bind fun _ hc => h ?_
  unfold check at hc
  split at hc
  · assumption
  · exact absurd hc Res.panic_ne_ok

end InPlace

namespace Ciphertext
open InPlace

/-- A function applied to the parts one after the other, with their indices. -/
def mapParts (f : Nat → Poly .ntt → Res (Poly .ntt)) : Nat → List (Poly .ntt) → Res (List (Poly .ntt))
  | _, [] => Res.ok []
  | i, x :: xs => do return (← f i x) :: (← mapParts f (i + 1) xs)

/-- A step of a loop over the parts does what `f` does with the `i`-th part. -/
def StepIs (step : Nat → InPlace Ciphertext Unit) (f : Nat → Poly .ntt → Res (Poly .ntt)) : Prop :=
  ∀ (ct : Ciphertext) (i : Nat) (x : Poly .ntt), ct.c[i]? = some x →
    (∀ y, f i x = Res.ok y → (step i).exec ct = (.ok (), { ct with c := ct.c.set i y })) ∧
    (∀ e, f i x = Res.err e → ((step i).exec ct).1 = .error (.err e)) ∧ (f i x = Res.panic → ((step i).exec ct).1 = .error .panic)

theorem fst_error_bind {α β σ : Type} {x : InPlace σ α} {k : α → InPlace σ β} {s : σ} {e : Failure} (h : (x.exec s).1 = .error e) : ((x >>= k).exec s).1 = .error e := by
  rw [exec_bind]
  rcases hx : x.exec s with ⟨_ | _, _⟩ <;> rw [hx] at h <;> simp_all

/-- A loop over the parts. -/
theorem forParts_matches {step : Nat → InPlace Ciphertext Unit} {f : Nat → Poly .ntt → Res (Poly .ntt)} (hs : StepIs step f) :
    ∀ (rest done : List (Poly .ntt)) (ct : Ciphertext), ct.c = done ++ rest →
      Matches (forParts step rest.length done.length) ct (do return { ct with c := done ++ (← mapParts f done.length rest) })
  | [], done, ct, hc => by
    refine matches_ok ?_
    rw [List.length_nil, forParts, exec_pure]
    simp only [List.append_nil] at hc ⊢
    rw [← hc]
  | x :: rest, done, ct, hc => by
    obtain ⟨h1, h2, h3⟩ := hs ct done.length x (by rw [hc]; simp)
    rw [List.length_cons, forParts, mapParts]
    rcases Res.cases (f done.length x) with ⟨y, hy⟩ | ⟨e, he⟩ | hp
    · have ih := forParts_matches hs rest (done ++ [y]) { ct with c := done ++ [y] ++ rest } rfl
      have e1 := h1 y hy
      have : ct.c.set done.length y = done ++ [y] ++ rest := by rw [hc]; simp
      rw [this] at e1
      unfold Matches at ih ⊢
      rw [exec_bind, e1, hy, Res.ok_bind]
      rw [List.length_append, List.length_singleton] at ih
      rcases Res.cases (mapParts f (done.length + 1) rest) with ⟨ys, hys⟩ | ⟨e, he⟩ | hp
      · rw [hys] at ih ⊢
        simpa [Res.ok_bind, Res.pure_eq] using ih
      · rw [he] at ih ⊢
        simpa [Res.err_bind] using ih
      · rw [hp] at ih ⊢
        simpa [Res.panic_bind] using ih
    · rw [he, Res.err_bind, Res.err_bind]
      exact ⟨fun _ h => absurd h Res.err_ne_ok, fun e' h => by rw [Res.err_inj] at h; subst h; exact fst_error_bind (h2 e he), fun h => by cases h⟩
    · rw [hp, Res.panic_bind, Res.panic_bind]
      exact ⟨fun _ h => absurd h Res.panic_ne_ok, fun e' h => (by cases h), fun _ => fst_error_bind (h3 hp)⟩

theorem stepIs_replace (f : Poly .ntt → Res (Poly .ntt)) : StepIs (fun i => replacePart i f) (fun _ => f) := fun ct i x hx => by
  have key : (replacePart i f).exec ct = (eval (f x) >>= fun y => modify fun ct => { ct with c := ct.c.set i y } : InPlace Ciphertext Unit).exec ct := by
    unfold replacePart
    rw [exec_bind, exec_get]
    show ((eval (lift ct.c[i]?)) >>= _ : InPlace Ciphertext Unit).exec ct = _
    rw [hx, Res.lift_some, exec_bind, exec_eval_ok]
  simp only [key]
  refine ⟨fun y hy => ?_, fun e he => ?_, fun hp => ?_⟩
  · rw [hy, exec_bind, exec_eval_ok]; rfl
  · rw [he, exec_bind, exec_eval_err]
  · rw [hp, exec_bind, exec_eval_panic]

theorem updatePart_exec (wreck : Poly .ntt) (i : Nat) (f : Poly .ntt → Panics (Poly .ntt)) (ct : Ciphertext) {x : Poly .ntt} (hx : ct.c[i]? = some x) :
    (updatePart wreck i f).exec ct = match f x with
      | some y => (.ok (), { ct with c := ct.c.set i y })
      | none => (.error .panic, { ct with c := ct.c.set i wreck }) := by
  unfold updatePart
  rw [exec_bind, exec_get]
  show ((eval (lift ct.c[i]?)) >>= _ : InPlace Ciphertext Unit).exec ct = _
  rw [hx, Res.lift_some, exec_bind, exec_eval_ok]
  show (match f x with | some y => _ | none => _ : InPlace Ciphertext Unit).exec ct = _
  cases f x <;> rfl

theorem stepIs_update (wreck : Poly .ntt) (f : Poly .ntt → Panics (Poly .ntt)) : StepIs (fun i => updatePart wreck i f) (fun _ x => lift (f x)) := fun ct i x hx => by
  simp only [updatePart_exec wreck i f ct hx]
  cases f x with
  | none => exact ⟨fun y h => absurd h Res.panic_ne_ok, fun e h => (by cases h), fun _ => rfl⟩
  | some z => exact ⟨fun y h => by rw [Res.lift_some, Res.ok_inj] at h; rw [h], fun e h => (by cases h), fun h => by cases h⟩

theorem stepIs_update_args (wreck : Poly .ntt) (args : List (Poly .ntt)) (op : Poly .ntt → Poly .ntt → Panics (Poly .ntt)) :
    StepIs (fun i => do updatePart wreck i ((← eval (lift args[i]?)) |> fun y x => op x y)) (fun i x => do lift (op x (← lift args[i]?))) := fun ct i x hx => by
  cases ha : args[i]? with
  | none =>
    simp only [ha, Res.lift_none, Res.panic_bind]
    refine ⟨fun y h => absurd h Res.panic_ne_ok, fun e h => (by cases h), fun _ => ?_⟩
    rw [exec_bind, exec_eval_panic]
  | some a =>
    have key : (do updatePart wreck i ((← eval (Res.ok a)) |> fun y x => op x y) : InPlace Ciphertext Unit).exec ct = (updatePart wreck i fun x => op x a).exec ct := by
      rw [exec_bind, exec_eval_ok]
    simp only [ha, Res.lift_some, Res.ok_bind, key]
    exact stepIs_update wreck (fun x => op x a) ct i x hx

theorem mapParts_const (f : Poly .ntt → Res (Poly .ntt)) : ∀ (i : Nat) (xs : List (Poly .ntt)), mapParts (fun _ => f) i xs = xs.mapM f
  | _, [] => rfl
  | i, x :: xs => by
    rw [mapParts, mapParts_const f (i + 1) xs, List.mapM_cons]

theorem mapM_lift {α β : Type} (f : α → Panics β) : ∀ xs : List α, xs.mapM (fun x => lift (f x)) = lift (xs.mapM f)
  | [] => rfl
  | x :: xs => by
    rw [List.mapM_cons, List.mapM_cons, mapM_lift f xs]
    cases f x with
    | none => rfl
    | some y => cases xs.mapM f <;> rfl

theorem mapParts_zip (op : Poly .ntt → Poly .ntt → Panics (Poly .ntt)) : ∀ (done args xs : List (Poly .ntt)), args.length = xs.length →
    mapParts (fun i x => do lift (op x (← lift (done ++ args)[i]?))) done.length xs = lift ((xs.zip args).mapM fun x => op x.1 x.2)
  | _, [], [], _ => rfl
  | done, a :: args, x :: xs, h => by
    have ih := mapParts_zip op (done ++ [a]) args xs (by simpa using h)
    rw [List.append_assoc, List.singleton_append, List.length_append, List.length_singleton] at ih
    rw [mapParts, ih, List.zip_cons_cons, List.mapM_cons]
    have : (done ++ a :: args)[done.length]? = some a := by simp
    rw [this, Res.lift_some, Res.ok_bind]
    cases op x a with
    | none => rfl
    | some y => cases (xs.zip args).mapM fun x => op x.1 x.2 <;> rfl

end Ciphertext
end Fhe

namespace Fhe
open InPlace

theorem lift_bind {α β : Type} (x : Panics α) (f : α → Panics β) : lift (x >>= f) = lift x >>= fun a => lift (f a) := by
  cases x <;> rfl

namespace InPlace
variable {σ : Type}

theorem Matches.seq_modify {x : InPlace σ Unit} {s : σ} {r : Res σ} (h : Matches x s r) (g : σ → σ) : Matches (x >>= fun _ => modify g) s (r >>= fun s' => Res.ok (g s')) := by
  rcases Res.cases r with ⟨a, rfl⟩ | ⟨e, rfl⟩ | rfl
  · rw [Res.ok_bind]
    exact matches_ok (by rw [exec_bind, h.1 a rfl]; rfl)
  · rw [Res.err_bind]
    exact ⟨fun _ h => absurd h Res.err_ne_ok, fun e' h' => by rw [Res.err_inj] at h'; subst h'; exact Ciphertext.fst_error_bind (h.2.1 e rfl), fun h => by cases h⟩
  · rw [Res.panic_bind]
    exact ⟨fun _ h => absurd h Res.panic_ne_ok, fun e' h => (by cases h), fun _ => Ciphertext.fst_error_bind (h.2.2 rfl)⟩

theorem Matches.seq {x : InPlace σ Unit} {y : InPlace σ Unit} {s : σ} {r : Res σ} {k : σ → Res σ} (h : Matches x s r) (hk : ∀ s', r = Res.ok s' → Matches y s' (k s')) :
    Matches (x >>= fun _ => y) s (r >>= k) := by
  rcases Res.cases r with ⟨a, rfl⟩ | ⟨e, rfl⟩ | rfl
  · rw [Res.ok_bind]
    have := hk a rfl
    unfold Matches at this ⊢
    rw [exec_bind, h.1 a rfl]
    exact this
  · rw [Res.err_bind]
    exact ⟨fun _ h => absurd h Res.err_ne_ok, fun e' h' => by rw [Res.err_inj] at h'; subst h'; exact Ciphertext.fst_error_bind (h.2.1 e rfl), fun h => by cases h⟩
  · rw [Res.panic_bind]
    exact ⟨fun _ h => absurd h Res.panic_ne_ok, fun e' h => (by cases h), fun _ => Ciphertext.fst_error_bind (h.2.2 rfl)⟩

theorem matches_modify_bind {x : InPlace σ Unit} {g : σ → σ} {s : σ} {r : Res σ} (h : Matches x (g s) r) : Matches (modify g >>= fun _ => x) s r := by
  unfold Matches at h ⊢
  rw [exec_bind, exec_modify]
  exact h

end InPlace

namespace Ciphertext

theorem switchDownIn_matches (ct : Ciphertext) : Matches switchDownIn ct ct.switchDown := by
  unfold switchDownIn switchDown
  refine matches_get_bind (matches_eval_bind fun max _ => ?_)
  by_cases h : ct.level ≥ max
  · rw [if_pos h, if_pos h]
    exact matches_throw _ _
  · rw [if_neg h, if_neg h]
    refine matches_modify_bind ?_
    have := (forParts_matches (stepIs_replace switchPoly) ct.c [] { ct with seed := none } rfl).seq_modify fun ct => { ct with level := ct.level + 1 }
    rw [List.length_nil, mapParts_const] at this
    rcases Res.cases (ct.c.mapM switchPoly) with ⟨ys, hys⟩ | ⟨e, he⟩ | hp
    · rw [hys] at this ⊢; exact this
    · rw [he] at this ⊢; exact this
    · rw [hp] at this ⊢; exact this

theorem switchDown_level {ct r : Ciphertext} (h : ct.switchDown = Res.ok r) : r.level = ct.level + 1 := by
  unfold switchDown at h
  rw [Res.bind_eq_ok] at h
  obtain ⟨max, -, h⟩ := h
  split at h
  · exact absurd h Res.err_ne_ok
  · rw [Res.bind_eq_ok] at h
    obtain ⟨c, -, h⟩ := h
    rw [Res.pure_eq, Res.ok_inj] at h
    rw [← h]

theorem switchWhile_matches (target : Nat) : ∀ (left : Nat) (ct : Ciphertext), ct.level + left = target → Matches (switchWhile target left) ct (ct.switchLoop left)
  | 0, ct, _ => matches_ok rfl
  | left + 1, ct, h => by
    rw [switchWhile, switchLoop]
    refine matches_get_bind ?_
    rw [if_pos (by omega)]
    exact (switchDownIn_matches ct).seq fun r hr => switchWhile_matches target left r (by rw [switchDown_level hr]; omega)

theorem switchToLevelIn_matches (ct : Ciphertext) (target : Nat) : Matches (switchToLevelIn target) ct (ct.switchToLevel target) := by
  unfold switchToLevelIn switchToLevel
  refine matches_get_bind (matches_eval_bind fun max _ => ?_)
  by_cases h : target < ct.level
  · rw [if_pos h, if_pos h]
    exact matches_throw _ _
  · rw [if_neg h, if_neg h]
    by_cases h' : target > max
    · rw [if_pos h', if_pos h']
      exact matches_throw _ _
    · rw [if_neg h', if_neg h']
      exact switchWhile_matches target _ ct (by omega)

/-- The loops of the four operators on two ciphertexts. -/
theorem zipIn_matches (wreck : Poly .ntt) (op : Poly .ntt → Poly .ntt → Panics (Poly .ntt)) (ct rhs : Ciphertext) (h : ct.c.length = rhs.c.length) :
    Matches (do
      forParts (fun i => do updatePart wreck i ((← eval (lift rhs.c[i]?)) |> fun y x => op x y)) ct.c.length 0
      modify fun ct => { ct with seed := none }) ct (lift (do return { ct with seed := none, c := ← (ct.c.zip rhs.c).mapM fun x => op x.1 x.2 })) := by
  have := (forParts_matches (stepIs_update_args wreck rhs.c op) ct.c [] ct rfl).seq_modify fun ct => { ct with seed := none }
  have e := mapParts_zip op [] rhs.c ct.c h.symm
  rw [List.nil_append, List.length_nil] at e
  rw [List.length_nil, e] at this
  cases hm : (ct.c.zip rhs.c).mapM fun x => op x.1 x.2 with
  | none => rw [hm] at this; exact this
  | some ys => rw [hm] at this; exact this

theorem addIn_matches (wreck : Poly .ntt) (ct rhs : Ciphertext) : Matches (addIn wreck rhs) ct (lift (ct.add rhs)) := by
  unfold addIn add
  rw [lift_bind]
  refine matches_get_bind (matches_assert_bind fun _ => ?_)
  by_cases h1 : ct.c = []
  · rw [if_pos h1, if_pos h1]
    exact matches_ok rfl
  rw [if_neg h1, if_neg h1]
  by_cases h2 : rhs.c = []
  · rw [if_neg (by simpa using h2), if_pos h2]
    exact matches_ok rfl
  rw [if_pos h2, if_neg h2, lift_bind]
  refine matches_assert_bind fun h3 => ?_
  rw [lift_bind]
  refine matches_assert_bind fun h4 => ?_
  exact zipIn_matches wreck _ ct rhs h4

theorem subIn_matches (wreck : Poly .ntt) (ct rhs : Ciphertext) : Matches (subIn wreck rhs) ct (lift (ct.sub rhs)) := by
  unfold subIn sub
  rw [lift_bind]
  refine matches_get_bind (matches_assert_bind fun _ => ?_)
  by_cases h1 : ct.c = []
  · rw [if_pos h1, if_pos h1]
    have := matches_eval_bind (r := lift rhs.neg) (x := fun a => (set a : InPlace Ciphertext Unit)) (k := Res.ok) (s := ct) fun a _ => matches_ok rfl
    cases hn : rhs.neg with
    | none => rw [hn] at this; exact this
    | some y => rw [hn] at this; exact this
  rw [if_neg h1, if_neg h1]
  by_cases h2 : rhs.c = []
  · rw [if_neg (by simpa using h2), if_pos h2]
    exact matches_ok rfl
  rw [if_pos h2, if_neg h2, lift_bind]
  refine matches_assert_bind fun h3 => ?_
  rw [lift_bind]
  refine matches_assert_bind fun h4 => ?_
  exact zipIn_matches wreck _ ct rhs h4

/-- The first part changed, then the seed dropped. -/
theorem headIn_matches (wreck : Poly .ntt) (f : Poly .ntt → Panics (Poly .ntt)) (ct : Ciphertext) {c0 : Poly .ntt} {rest : List (Poly .ntt)} (h : ct.c = c0 :: rest) :
    Matches (do
      updatePart wreck 0 f
      modify fun ct => { ct with seed := none }) ct (lift (do return { ct with seed := none, c := (← f c0) :: rest })) := by
  have e := updatePart_exec wreck 0 f ct (x := c0) (by rw [h]; rfl)
  cases hf : f c0 with
  | none =>
    rw [hf] at e
    exact ⟨fun _ h => absurd h Res.panic_ne_ok, fun e' h => (by cases h), fun _ => fst_error_bind (by rw [e])⟩
  | some y =>
    rw [hf] at e
    refine matches_ok ?_
    rw [exec_bind_ok e, exec_modify, h]
    rfl

theorem addPlainIn_matches (wreck : Poly .ntt) (ct : Ciphertext) (pt : Plaintext) : Matches (addPlainIn wreck pt) ct (lift (ct.addPlain pt)) := by
  unfold addPlainIn addPlain
  rw [lift_bind]
  refine matches_get_bind (matches_assert_bind fun _ => ?_)
  cases hc : ct.c with
  | nil =>
    refine ⟨fun _ h => absurd h Res.panic_ne_ok, fun e' h => (by cases h), fun _ => fst_error_bind ?_⟩
    rfl
  | cons c0 rest =>
    unfold Matches
    rw [exec_bind_ok (s' := ct) (a := ()) (by rfl)]
    show Matches _ ct _
    rw [lift_bind]
    refine matches_eval_bind fun l _ => ?_
    rw [lift_bind]
    refine matches_assert_bind fun _ => ?_
    rw [lift_bind]
    exact matches_eval_bind fun poly _ => headIn_matches wreck _ ct hc

theorem subPlainIn_matches (wreck : Poly .ntt) (ct : Ciphertext) (pt : Plaintext) : Matches (subPlainIn wreck pt) ct (lift (ct.subPlain pt)) := by
  unfold subPlainIn subPlain
  rw [lift_bind]
  refine matches_get_bind (matches_assert_bind fun _ => ?_)
  cases hc : ct.c with
  | nil =>
    refine ⟨fun _ h => absurd h Res.panic_ne_ok, fun e' h => (by cases h), fun _ => fst_error_bind ?_⟩
    rfl
  | cons c0 rest =>
    unfold Matches
    rw [exec_bind_ok (s' := ct) (a := ()) (by rfl)]
    show Matches _ ct _
    rw [lift_bind]
    refine matches_eval_bind fun l _ => ?_
    rw [lift_bind]
    refine matches_assert_bind fun _ => ?_
    rw [lift_bind]
    exact matches_eval_bind fun poly _ => headIn_matches wreck _ ct hc

theorem mulPlainIn_matches (wreck : Poly .ntt) (ct : Ciphertext) (pt : Plaintext) : Matches (mulPlainIn wreck pt) ct (lift (ct.mulPlain pt)) := by
  unfold mulPlainIn mulPlain
  rw [lift_bind]
  refine matches_get_bind (matches_assert_bind fun _ => ?_)
  by_cases h1 : ct.c = []
  · rw [if_neg (by simpa using h1), if_pos h1]
    exact matches_ok rfl
  rw [if_pos h1, if_neg h1, lift_bind]
  refine matches_eval_bind fun l _ => ?_
  rw [lift_bind]
  refine matches_assert_bind fun _ => ?_
  have := (forParts_matches (stepIs_update wreck fun x => x.mulAssign pt.polyNtt) ct.c [] ct rfl).seq_modify fun ct => { ct with seed := none }
  rw [List.length_nil, mapParts_const, mapM_lift] at this
  cases hm : ct.c.mapM fun ci => ci.mulAssign pt.polyNtt with
  | none => rw [hm] at this; exact this
  | some ys => rw [hm] at this; exact this

end Ciphertext

theorem RelinearizationKey.relinearizesIn_matches (k : RelinearizationKey) (wreck : Poly .ntt) (ct : Ciphertext) : Matches (k.relinearizesIn wreck) ct (k.relinearizes ct) := by
  unfold relinearizesIn relinearizes
  refine matches_get_bind (matches_eval_bind fun _ _ => ?_)
  rcases hc : ct.c with _ | ⟨x0, _ | ⟨x1, _ | ⟨x2, _ | ⟨x3, xs⟩⟩⟩⟩
  · exact matches_throw _ _
  · exact matches_throw _ _
  · exact matches_throw _ _
  · show Matches (if _ then _ else _) _ (if _ then _ else _)
    by_cases hl : ct.level ≠ k.ksk.ciphertextLevel
    · rw [if_pos hl, if_pos hl]
      exact matches_throw _ _
    · rw [if_neg hl, if_neg hl]
      refine matches_eval_bind fun c2 _ => matches_eval_bind fun a _ => matches_eval_bind fun a _ => ?_
      have e := Ciphertext.updatePart_exec wreck 0 (fun x => x.addAssign a.1) ct (x := x0) (by rw [hc]; rfl)
      cases h0 : x0.addAssign a.1 with
      | none =>
        rw [h0] at e
        exact ⟨fun _ h => absurd h Res.panic_ne_ok, fun e' h => (by cases h), fun _ => Ciphertext.fst_error_bind (by rw [e])⟩
      | some y0 =>
        rw [h0, hc] at e
        unfold Matches
        rw [exec_bind_ok e]
        show Matches _ _ _
        have e := Ciphertext.updatePart_exec wreck 1 (fun x => x.addAssign a.2) { ct with c := [x0, x1, x2].set 0 y0 } (x := x1) rfl
        cases h1 : x1.addAssign a.2 with
        | none =>
          rw [h1] at e
          exact ⟨fun _ h => absurd h Res.panic_ne_ok, fun e' h => (by cases h), fun _ => Ciphertext.fst_error_bind (by rw [e])⟩
        | some y1 =>
          rw [h1] at e
          exact matches_ok (by rw [exec_bind_ok e]; rfl)
  · exact matches_throw _ _

theorem Poly.switchDownIn_matches (wreck p : Poly .powerBasis) : Matches (Poly.switchDownIn wreck) p (math p.switchDown) := by
  unfold Poly.switchDownIn
  refine matches_get_bind ?_
  rcases p.switchDown with _ | _ | _
  · exact ⟨fun _ h => absurd h Res.panic_ne_ok, fun e' h => (by cases h), fun _ => rfl⟩
  · exact matches_throw _ _
  · exact matches_ok rfl

theorem Poly.switchDownLoopIn_matches (wreck : Poly .powerBasis) : ∀ (n : Nat) (p : Poly .powerBasis), Matches (Poly.switchDownLoopIn wreck n) p (math (p.switchDownLoop n))
  | 0, p => matches_ok rfl
  | n + 1, p => by
    rw [Poly.switchDownLoopIn, Poly.switchDownLoop]
    have := (Poly.switchDownIn_matches wreck p).seq fun p' _ => Poly.switchDownLoopIn_matches wreck n p'
    rcases hp : p.switchDown with _ | _ | _ <;> rw [hp] at this <;> exact this

theorem Poly.switchDownToIn_matches (wreck p : Poly .powerBasis) (target : Context) : Matches (Poly.switchDownToIn wreck target) p (math (p.switchDownTo target)) := by
  unfold Poly.switchDownToIn Poly.switchDownTo
  refine matches_get_bind ?_
  cases p.ctx.niterationsTo target with
  | error e => exact matches_throw _ _
  | ok n =>
    have := (Poly.switchDownLoopIn_matches wreck n p).seq (y := do if (← get).ctx ≠ target then throw (.err (.math .contextNotReachable)) else pure ())
      (k := fun p' => if p'.ctx ≠ target then Res.err (.math .contextNotReachable) else Res.ok p') fun p' _ => by
        refine matches_get_bind ?_
        split
        · exact matches_throw _ _
        · exact matches_ok rfl
    show Matches _ p (math (p.switchDownLoop n >>= _))
    rcases hp : p.switchDownLoop n with _ | _ | p'
    · rw [hp] at this; exact this
    · rw [hp] at this; exact this
    · rw [hp, Res.math_ok, Res.ok_bind] at this
      show Matches _ _ (math (if p'.ctx ≠ target then some (.error .contextNotReachable) else some (.ok p')))
      by_cases h : p'.ctx ≠ target
      · rw [if_pos h] at this ⊢; exact this
      · rw [if_neg h] at this ⊢; exact this

end Fhe
