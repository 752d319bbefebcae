import Mathlib.Data.List.Forall2
import Verif.Spec.Timing
/-!
# Rules for release runs

`Agrees` relates a release run to the checked model of the same function; `Indist` relates two release runs.
-/
namespace Fhe.Release
variable {α β γ δ : Type}

/-! ## Release runs and the checked model -/

/-- Where the checked model does not panic, the release build returns the same value. -/
def Agrees (o : Option α) (t : Timed α) : Prop := ∀ y, o = some y → t.result = some y

theorem bind_def (t : Timed α) (f : α → Timed β) : (t >>= f) = Timed.bind t f := rfl
theorem bind_some {t : Timed α} {f : α → Timed β} {a : α} (h : t.result = some a) :
    (t >>= f) = ⟨(f a).result, t.trace ++ (f a).trace⟩ := by rw [bind_def, Timed.bind, h]
theorem bind_none {t : Timed α} {f : α → Timed β} (h : t.result = none) : (t >>= f) = ⟨none, t.trace⟩ := by
  rw [bind_def, Timed.bind, h]
@[simp] theorem pure_result (a : α) : (pure a : Timed α).result = some a := rfl
@[simp] theorem pure_trace (a : α) : (pure a : Timed α).trace = [] := rfl
theorem pure_bind' (a : α) (f : α → Timed β) : ((pure a : Timed α) >>= f) = f a := by
  rw [bind_some (pure_result a)]; simp
theorem branch_bind (c : Prop) [Decidable c] (f : Bool → Timed β) :
    (branchOn c >>= f) = ⟨(f (decide c)).result, .branch (decide c) :: (f (decide c)).trace⟩ := rfl

theorem Agrees.pure (a : α) : Agrees (some a) (pure a : Timed α) := fun _ h => h
theorem Agrees.pure' (a : α) : Agrees (Pure.pure a) (Pure.pure a : Timed α) := fun _ h => h
theorem Agrees.none (t : Timed α) : Agrees none t := fun _ h => by simp at h
theorem Agrees.bind {o : Option α} {t : Timed α} {f : α → Option β} {g : α → Timed β} (h : Agrees o t)
    (hf : ∀ a, o = some a → Agrees (f a) (g a)) : Agrees (o >>= f) (t >>= g) := by
  intro y hy
  obtain ⟨a, ha, hb⟩ := Option.bind_eq_some_iff.1 hy
  rw [bind_some (h a ha)]
  exact hf a ha y hb
theorem Agrees.check {c : Prop} [Decidable c] {f : Unit → Option β} {t : Timed β} (h : c → Agrees (f ()) t) :
    Agrees (check c >>= f) t := by
  intro y hy
  by_cases hc : c
  · rw [check_eq hc] at hy; exact h hc y hy
  · rw [show Fhe.check c = Option.none from if_neg hc] at hy; simp at hy
theorem Agrees.add64 {a b : Nat} {f : Nat → Option β} {t : Timed β} (h : Agrees (f (wadd64 a b)) t) : Agrees (add64 a b >>= f) t := by
  intro y hy
  by_cases hc : a + b < 2 ^ 64
  · rw [add64_eq hc] at hy
    refine h y ?_
    rw [wadd64, Nat.mod_eq_of_lt hc]; exact hy
  · rw [show Fhe.add64 a b = Option.none from if_neg hc] at hy; simp at hy
theorem Agrees.mul64 {a b : Nat} {f : Nat → Option β} {t : Timed β} (h : Agrees (f (wmul64 a b)) t) : Agrees (mul64 a b >>= f) t := by
  intro y hy
  by_cases hc : a * b < 2 ^ 64
  · rw [mul64_eq hc] at hy
    refine h y ?_
    rw [wmul64, Nat.mod_eq_of_lt hc]; exact hy
  · rw [show Fhe.mul64 a b = Option.none from if_neg hc] at hy; simp at hy
theorem Agrees.add128 {a b : Nat} {f : Nat → Option β} {t : Timed β} (h : Agrees (f (wadd128 a b)) t) :
    Agrees (add128 a b >>= f) t := by
  intro y hy
  by_cases hc : a + b < 2 ^ 128
  · rw [add128_eq hc] at hy
    refine h y ?_
    rw [wadd128, Nat.mod_eq_of_lt hc]; exact hy
  · rw [show Fhe.add128 a b = Option.none from if_neg hc] at hy; simp at hy
theorem Agrees.mul128 {a b : Nat} {f : Nat → Option β} {t : Timed β} (h : Agrees (f (wmul128 a b)) t) :
    Agrees (mul128 a b >>= f) t := by
  intro y hy
  by_cases hc : a * b < 2 ^ 128
  · rw [mul128_eq hc] at hy
    refine h y ?_
    rw [wmul128, Nat.mod_eq_of_lt hc]; exact hy
  · rw [show Fhe.mul128 a b = Option.none from if_neg hc] at hy; simp at hy
theorem Agrees.subU (w : Nat) {a b : Nat} {f : Nat → Option β} {t : Timed β} (h : Agrees (f (wsub w a b)) t) : Agrees (subU a b >>= f) t := by
  intro y hy
  by_cases hc : b ≤ a
  · rw [subU_eq hc] at hy
    refine h y ?_
    rw [wsub, if_pos hc]; exact hy
  · rw [show Fhe.subU a b = Option.none from if_neg hc] at hy; simp at hy
theorem Agrees.branch {o : Option β} {c : Prop} [Decidable c] {g : Bool → Timed β} (h : Agrees o (g (decide c))) :
    Agrees o (branchOn c >>= g) := by
  intro y hy
  rw [branch_bind]
  exact h y hy
theorem Agrees.ite {o o' : Option β} {c : Prop} [Decidable c] {t t' : Timed β} (h : c → Agrees o t) (h' : ¬ c → Agrees o' t') :
    Agrees (if c then o else o') (branchOn c >>= fun b => if b = true then t else t') := by
  apply Agrees.branch
  by_cases hc : c
  · simpa [hc] using h hc
  · simpa [hc] using h' hc
theorem Agrees.fetch {l : List α} {i : Nat} : Agrees l[i]? (fetch l i) := fun _ h => h
theorem Agrees.assert {c : Prop} [Decidable c] : Agrees (Fhe.check c) (assert c) := fun _ h => h
theorem Agrees.publicly (o : Option α) : Agrees o (publicly o) := fun _ h => h
theorem Agrees.trans {o o' : Option α} {t : Timed α} (h : ∀ y, o = some y → o' = some y) (h' : Agrees o' t) : Agrees o t :=
  fun y hy => h' y (h y hy)

theorem Agrees.mapM {f : α → Option β} {g : α → Timed β} (h : ∀ a, Agrees (f a) (g a)) : (l : List α) → Agrees (l.mapM f) (mapLoop g l)
  | [] => by rw [List.mapM_nil]; exact Agrees.branch (Agrees.pure [])
  | a :: l => by
    rw [List.mapM_cons]
    apply Agrees.branch
    exact (h a).bind fun y _ => (Agrees.mapM h l).bind fun _ _ => Agrees.pure _
theorem Agrees.mapM' {f : α → Option β} {g : α → Timed β} : (l : List α) → (∀ a ∈ l, Agrees (f a) (g a)) → Agrees (l.mapM f) (mapLoop g l)
  | [], _ => by rw [List.mapM_nil]; exact Agrees.branch (Agrees.pure [])
  | a :: l, h => by
    rw [List.mapM_cons]
    apply Agrees.branch
    exact (h a (by simp)).bind fun y _ => (Agrees.mapM' l fun b hb => h b (by simp [hb])).bind fun _ _ => Agrees.pure _
theorem Agrees.zipAssign {f : Nat → Nat → Option Nat} {g : Nat → Nat → Timed Nat} (h : ∀ a b, Agrees (f a b) (g a b)) :
    (a b : List Nat) → Agrees (Modulus.zipAssign f a b) (zipLoop g a b)
  | [], _ => Agrees.branch (Agrees.pure _)
  | _ :: _, [] => Agrees.branch (Agrees.pure _)
  | a :: as, b :: bs => by
    rw [Modulus.zipAssign, zipLoop]
    apply Agrees.branch
    exact (h a b).bind fun y _ => (Agrees.zipAssign h as bs).bind fun _ _ => Agrees.pure _
theorem Agrees.zipRows {f : List Nat → β → Option (List Nat)} {g : List Nat → β → Timed (List Nat)} (h : ∀ a b, Agrees (f a b) (g a b)) :
    (a : List (List Nat)) → (b : List β) → Agrees (Fhe.zipRows f a b) (zipLoop g a b)
  | [], _ => Agrees.branch (Agrees.pure _)
  | _ :: _, [] => Agrees.branch (Agrees.pure _)
  | a :: as, b :: bs => by
    rw [Fhe.zipRows, zipLoop]
    apply Agrees.branch
    exact (h a b).bind fun y _ => (Agrees.zipRows h as bs).bind fun _ _ => Agrees.pure _
theorem Agrees.chunk {f : Nat → Nat → Option Nat} {g : Nat → Nat → Timed Nat} (h : ∀ a b, Agrees (f a b) (g a b)) (a b : List Nat) :
    Agrees (Modulus.chunkAssign f a b) (chunkLoop g a b) := by
  rw [Modulus.chunkAssign, chunkLoop]
  split
  · next hl =>
    apply Agrees.branch
    exact (Agrees.zipAssign h _ _).bind fun _ _ =>
      (Agrees.chunk h (a.drop 16) (b.drop 16)).bind fun _ _ => Agrees.pure _
  · exact Agrees.branch (Agrees.zipAssign h _ _)
termination_by a.length
decreasing_by simp [List.length_drop]; omega

/-! ## Two release runs -/

theorem Indist.pure {R : α → β → Prop} {a : α} {b : β} (h : R a b) : Indist R (pure a : Timed α) (pure b : Timed β) :=
  ⟨rfl, .some h⟩
theorem Indist.panic {R : α → β → Prop} : Indist R (panic : Timed α) (panic : Timed β) := ⟨rfl, .none⟩
theorem Indist.refl {R : α → α → Prop} (h : ∀ a, R a a) (t : Timed α) : Indist R t t := by
  refine ⟨rfl, ?_⟩
  cases t.result with
  | none => exact .none
  | some a => exact .some (h a)
theorem Indist.mono {R S : α → β → Prop} {t : Timed α} {t' : Timed β} (h : Indist R t t') (hRS : ∀ a b, R a b → S a b) : Indist S t t' := by
  refine ⟨h.1, ?_⟩
  have h' := h.2
  generalize t.result = x at h' ⊢
  generalize t'.result = x' at h' ⊢
  cases h' with
  | none => exact .none
  | some hR => exact .some (hRS _ _ hR)
theorem Indist.bind {R : α → β → Prop} {S : γ → δ → Prop} {t : Timed α} {t' : Timed β} {f : α → Timed γ} {g : β → Timed δ}
    (h : Indist R t t') (hf : ∀ a b, R a b → Indist S (f a) (g b)) : Indist S (t >>= f) (t' >>= g) := by
  obtain ⟨ht, hr⟩ := h
  obtain ⟨r, tr⟩ := t
  obtain ⟨r', tr'⟩ := t'
  simp only at ht hr
  subst ht
  cases hr with
  | none => rw [bind_none rfl, bind_none rfl]; exact ⟨rfl, .none⟩
  | some hR =>
    rw [bind_some rfl, bind_some rfl]
    obtain ⟨h1, h2⟩ := hf _ _ hR
    exact ⟨by simp only [h1], h2⟩
theorem Indist.branch {S : γ → δ → Prop} {c c' : Prop} [Decidable c] [Decidable c'] {f : Bool → Timed γ} {g : Bool → Timed δ} (hc : c ↔ c')
    (h : Indist S (f (decide c)) (g (decide c))) : Indist S (branchOn c >>= f) (branchOn c' >>= g) := by
  have : decide c = decide c' := by simp only [hc]
  rw [branch_bind, branch_bind, ← this]
  exact ⟨by simp only [h.1], h.2⟩
theorem Indist.ite {S : γ → δ → Prop} {c c' : Prop} [Decidable c] [Decidable c'] {t u : Timed γ} {t' u' : Timed δ} (hc : c ↔ c')
    (h : c → Indist S t t') (h' : ¬ c → Indist S u u') :
    Indist S (branchOn c >>= fun b => if b = true then t else u) (branchOn c' >>= fun b => if b = true then t' else u') := by
  refine Indist.branch hc ?_
  by_cases hcc : c
  · simpa [hcc] using h hcc
  · simpa [hcc] using h' hcc
theorem Indist.assert {S : γ → δ → Prop} {c c' : Prop} [Decidable c] [Decidable c'] {f : Unit → Timed γ} {g : Unit → Timed δ} (hc : c ↔ c')
    (h : Indist S (f ()) (g ())) : Indist S (Release.assert c >>= f) (Release.assert c' >>= g) := by
  refine Indist.bind (R := fun _ _ => True) ?_ fun _ _ _ => h
  refine ⟨by simp only [Release.assert, hc], ?_⟩
  by_cases hcc : c
  · have : c' := hc.1 hcc
    simp only [Release.assert, if_pos hcc, if_pos this]; exact .some trivial
  · have : ¬ c' := fun x => hcc (hc.2 x)
    simp only [Release.assert, if_neg hcc, if_neg this]; exact .none
theorem Indist.fetch {R : α → β → Prop} {l : List α} {l' : List β} (h : List.Forall₂ R l l') (i : Nat) :
    Indist R (fetch l i) (fetch l' i) := by
  refine ⟨rfl, ?_⟩
  change Option.Rel R l[i]? l'[i]?
  induction h generalizing i with
  | nil => exact .none
  | cons hab _ ih =>
    cases i with
    | zero => exact .some hab
    | succ i => simpa using ih i
theorem Indist.publicly {R : α → β → Prop} {o : Option α} {o' : Option β} (h : Option.Rel R o o') :
    Indist R (publicly o) (publicly o') := ⟨rfl, h⟩

theorem SameLen.forall₂ {a b : List α} (h : SameLen a b) : List.Forall₂ AnyWords a b := by
  induction a generalizing b with
  | nil => cases b with
    | nil => exact .nil
    | cons _ _ => simp [SameLen] at h
  | cons x xs ih =>
    cases b with
    | nil => simp [SameLen] at h
    | cons y ys => exact .cons trivial (ih (by simpa [SameLen] using h))
theorem SameLen.of_forall₂ {R : α → α → Prop} {a b : List α} (h : List.Forall₂ R a b) : SameLen a b := h.length_eq
theorem SameLen.refl (a : List α) : SameLen a a := rfl
theorem SameShape.refl (a : List (List Nat)) : SameShape a a := List.forall₂_same.2 fun _ _ => rfl
theorem forall₂_eq (l : List α) : List.Forall₂ Eq l l := List.forall₂_same.2 fun _ _ => rfl

theorem Indist.mapLoop {R : α → β → Prop} {S : γ → δ → Prop} {f : α → Timed γ} {g : β → Timed δ} {l : List α} {l' : List β}
    (h : List.Forall₂ R l l') (hf : ∀ a b, R a b → Indist S (f a) (g b)) :
    Indist (List.Forall₂ S) (Release.mapLoop f l) (Release.mapLoop g l') := by
  induction h with
  | nil => exact Indist.branch Iff.rfl (Indist.pure .nil)
  | cons hab _ ih =>
    refine Indist.branch Iff.rfl ?_
    exact (hf _ _ hab).bind fun c d hcd => ih.bind fun cs ds hcs => Indist.pure (.cons hcd hcs)
theorem Indist.zipLoop {R : α → β → Prop} {S : γ → δ → Prop} {f : α → γ → Timed α} {g : β → δ → Timed β} {l : List α} {l' : List β}
    {k : List γ} {k' : List δ} (h : List.Forall₂ R l l') (hk : List.Forall₂ S k k')
    (hf : ∀ a b c d, R a b → S c d → Indist R (f a c) (g b d)) :
    Indist (List.Forall₂ R) (Release.zipLoop f l k) (Release.zipLoop g l' k') := by
  induction h generalizing k k' with
  | nil => exact Indist.branch Iff.rfl (Indist.pure .nil)
  | cons hab hl ih =>
    cases hk with
    | nil => exact Indist.branch Iff.rfl (Indist.pure (.cons hab hl))
    | cons hcd hk =>
      refine Indist.branch Iff.rfl ?_
      exact (hf _ _ _ _ hab hcd).bind fun c d hcd => (ih hk).bind fun cs ds hcs => Indist.pure (.cons hcd hcs)
theorem Indist.chunkLoop {f g : Nat → Nat → Timed Nat} {l l' k k' : List Nat} (h : SameLen l l') (hk : SameLen k k')
    (hf : ∀ a b c d, Indist AnyWords (f a c) (g b d)) : Indist (List.Forall₂ AnyWords) (Release.chunkLoop f l k) (Release.chunkLoop g l' k') := by
  unfold SameLen at h hk
  rw [Release.chunkLoop.eq_1 f l k, Release.chunkLoop.eq_1 g l' k']
  by_cases hl : 16 ≤ l.length ∧ 16 ≤ k.length
  · rw [dif_pos hl, dif_pos (by omega)]
    refine Indist.branch Iff.rfl ?_
    refine (Indist.zipLoop (SameLen.forall₂ ?_) (SameLen.forall₂ (b := k'.take 16) ?_) fun a b c d _ _ => hf a b c d).bind fun c d hcd => ?_
    · simp [SameLen, h]
    · simp [SameLen, hk]
    refine (Indist.chunkLoop (l := l.drop 16) (l' := l'.drop 16) (k := k.drop 16) (k' := k'.drop 16) ?_ ?_ hf).bind fun cs ds hcs => Indist.pure ?_
    · simp [SameLen, h]
    · simp [SameLen, hk]
    exact List.rel_append hcd hcs
  · rw [dif_neg hl, dif_neg (by omega)]
    refine Indist.branch Iff.rfl ?_
    exact Indist.zipLoop (SameLen.forall₂ h) (SameLen.forall₂ hk) fun a b c d _ _ => hf a b c d
termination_by l.length
decreasing_by simp [List.length_drop]; omega

/-- A run is its result and its observations. -/
theorem Timed.eq_mk {t : Timed α} {y : α} {tr : List Event} (h : t.result = some y) (h' : t.trace = tr) : t = ⟨some y, tr⟩ := by
  cases t; simp only at h h'; rw [h, h']

end Fhe.Release
