import Verif.Model.Checked
/-!
# What a run reveals through its timing

The documentation of `fhe-math` calls functions "constant time" or "variable time" (for example `/repo/crates/fhe-math/src/zq/mod.rs`
lines 100-118), and `/repo/crates/fhe-traits/src/lib.rs` lines 8-45 asks the caller to assert that data is public before variable-time code
may run on it.  The files `Verif/Model/Timed*.lean` model these functions a second time, as a *release build* executes them (no
`debug_assert!`, wrapping arithmetic), together with a trace of everything an attacker who measures time can see in the usual model
of constant-time programming: the outcome of each conditional jump, the index of each table access, and the operands of each integer
division.  Straight-line arithmetic, comparisons whose result is used as a number, shifts and multiplications leave no event.

Not modelled: what the compiler does to the source (it may turn a branch into a conditional move or a select into a branch), caches,
speculation, allocation, and the memory clearing of `zeroize`.
-/
namespace Fhe.Release

/-- One observation.  What the documentation of `add_vt`, `/repo/crates/fhe-math/src/zq/mod.rs` lines 108-118, warns about. -/
inductive Event where
  /-- a conditional jump -/
  | branch (taken : Bool)
  /-- an access at this index of a table -/
  | index (i : Nat)
  /-- a division or remainder whose divisor is not a constant -/
  | divide (a b : Nat)
  /-- arithmetic of `BigUint`, whose time may depend on its operands -/
  | big (values : List Nat)
deriving DecidableEq, Repr

/-- A run: its result (`none` is a panic that also a release build has) and what was observed.  For example a call of `add`,
`/repo/crates/fhe-math/src/zq/mod.rs` lines 103-106. -/
structure Timed (α : Type) where
  result : Option α
  trace : List Event
deriving DecidableEq, Repr

namespace Timed
variable {α β : Type}

/-- Sequencing: a panic ends the run.  The sequence of two statements, in all functions of the files `Timed*.lean`. -/
def bind (t : Timed α) (f : α → Timed β) : Timed β :=
  match t.result with
  | none => ⟨none, t.trace⟩
  | some a => ⟨(f a).result, t.trace ++ (f a).trace⟩

/-- Statements in sequence, in all functions of the files `Timed*.lean`. -/
instance : Monad Timed where
  pure a := ⟨some a, []⟩
  bind := Timed.bind

end Timed

/-! ## Primitives -/

/-- A panic.  For example `/repo/crates/fhe/src/bfv/ops/mod.rs` line 19. -/
def panic {α : Type} : Timed α := ⟨none, []⟩
/-- `if c`, `while c`, `match`: the condition is observed.  For example `/repo/crates/fhe-math/src/zq/mod.rs` lines 556-575. -/
def branchOn (c : Prop) [Decidable c] : Timed Bool := ⟨some (decide c), [.branch (decide c)]⟩
/-- `assert!(c)`.  For example `/repo/crates/fhe-util/src/lib.rs` line 201. -/
def assert (c : Prop) [Decidable c] : Timed Unit := ⟨if c then some () else none, [.branch (decide c)]⟩
/-- `l[i]`: the index is observed; out of range panics.  For example `/repo/crates/fhe/src/bfv/plaintext_vec.rs` line 83. -/
def fetch {α : Type} (l : List α) (i : Nat) : Timed α := ⟨l[i]?, [.index i]⟩
/-- `a / b` for a divisor that is not a constant; division by zero panics.  For example `/repo/crates/fhe-math/src/zq/mod.rs` line 198. -/
def divide (a b : Nat) : Timed Nat := ⟨if b = 0 then none else some (a / b), [.divide a b]⟩
/-- A computation on public data only (parameters, levels, lengths, contexts).  Its own trace is left out: it is the same in two runs with the same
public data.  For example `/repo/crates/fhe/src/bfv/plaintext.rs` lines 57 and 75. -/
def publicly {α : Type} (x : Option α) : Timed α := ⟨x, []⟩

/-- A computation with big numbers, which may reveal everything about its operands.  For example `/repo/crates/fhe/src/bfv/plaintext.rs` lines
120-126. -/
def bigUint {α : Type} (values : List Nat) (x : Option α) : Timed α := ⟨x, [.big values]⟩

/-- `a + b` on `u64`.  For example `/repo/crates/fhe-math/src/zq/mod.rs` lines 103-106. -/
def wadd64 (a b : Nat) : Nat := (a + b) % 2 ^ 64
/-- `a * b` on `u64`.  For example `/repo/crates/fhe-math/src/zq/mod.rs` line 231. -/
def wmul64 (a b : Nat) : Nat := a * b % 2 ^ 64
/-- `a + b` on `u128`.  For example `/repo/crates/fhe-math/src/zq/mod.rs` line 700. -/
def wadd128 (a b : Nat) : Nat := (a + b) % 2 ^ 128
/-- `a * b` on `u128`.  For example `/repo/crates/fhe-math/src/zq/mod.rs` lines 133 and 696-698. -/
def wmul128 (a b : Nat) : Nat := a * b % 2 ^ 128
/-- `a - b` on a type of `w` bits, for `a, b < 2^w`.  For example `/repo/crates/fhe-math/src/zq/mod.rs` lines 229, 663 and 701. -/
def wsub (w a b : Nat) : Nat := if b ≤ a then a - b else a + 2 ^ w - b

/-! ## Loops -/

/-- `for x in l { *x = f(x) }` and `l.iter().map(f).collect()`: the test of the loop is observed before each iteration.  For example
`/repo/crates/fhe-math/src/zq/mod.rs` lines 398-401. -/
def mapLoop {α β : Type} (f : α → Timed β) : List α → Timed (List β)
  | [] => do
    let _ ← branchOn False
    return []
  | x :: xs => do
    let _ ← branchOn True
    let y ← f x
    let ys ← mapLoop f xs
    return y :: ys

/-- `izip!(a.iter_mut(), b.iter()).for_each(|(ai, bi)| *ai = f(*ai, *bi))`: stops at the shorter of the two.  For example
`/repo/crates/fhe-math/src/zq/mod.rs` lines 243, 289 and 341. -/
def zipLoop {α β : Type} (f : α → β → Timed α) : List α → List β → Timed (List α)
  | a :: as, b :: bs => do
    let _ ← branchOn True
    let c ← f a b
    let cs ← zipLoop f as bs
    return c :: cs
  | as, _ => do
    let _ ← branchOn False
    return as

end Fhe.Release
