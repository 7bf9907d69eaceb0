import Verif.Cpp

/-!
# Stateful code with exceptions

`X σ α` is a computation on a state `σ` that ends normally with a result, ends with an exception (the state reached so far
being kept, as needed to study exception safety), or has no meaning (`Err`).
-/

namespace Verif.Cpp

/-- Outcome of a stateful computation. -/
inductive Out (σ α : Type) where
  | done (s : σ) (a : α)
  /-- an exception leaves the call, in state `s` -/
  | thrown (s : σ)
  | fail (e : Err)
  deriving DecidableEq

def X (σ α : Type) : Type := σ → Out σ α

namespace X
variable {σ α β : Type}

protected def pure (a : α) : X σ α := fun s => .done s a
protected def bind (m : X σ α) (f : α → X σ β) : X σ β := fun s =>
  match m s with
  | .done s a => f a s
  | .thrown s => .thrown s
  | .fail e => .fail e

instance : Monad (X σ) where
  pure := X.pure
  bind := X.bind

@[simp] theorem pure_run (a : α) (s : σ) : (pure a : X σ α) s = .done s a := rfl
theorem bind_run (m : X σ α) (f : α → X σ β) (s : σ) : (m >>= f) s =
  match m s with
  | .done s a => f a s
  | .thrown s => .thrown s
  | .fail e => .fail e := rfl

theorem bind_done {m : X σ α} {f : α → X σ β} {s s' : σ} {a : α} (h : m s = .done s' a) : (m >>= f) s = f a s' := by
  rw [bind_run, h]
theorem bind_thrown {m : X σ α} {f : α → X σ β} {s s' : σ} (h : m s = .thrown s') : (m >>= f) s = .thrown s' := by
  rw [bind_run, h]
theorem bind_fail {m : X σ α} {f : α → X σ β} {s : σ} {e : Err} (h : m s = .fail e) : (m >>= f) s = .fail e := by
  rw [bind_run, h]

/-- The current state. -/
def get : X σ σ := fun s => .done s s
/-- Replace the state. -/
def set (s : σ) : X σ Unit := fun _ => .done s ()
def modify (f : σ → σ) : X σ Unit := fun s => .done (f s) ()
def fail (e : Err) : X σ α := fun _ => .fail e
def throw : X σ α := fun s => .thrown s
/-- `NazaraAssert(c)`, Assert.hpp:14. -/
def assert (c : Bool) : X σ Unit := if c then pure () else fail .assert
def guardUB (c : Bool) : X σ Unit := if c then pure () else fail .ub

@[simp] theorem get_run (s : σ) : (get : X σ σ) s = .done s s := rfl
@[simp] theorem set_run (s t : σ) : (set t : X σ Unit) s = .done t () := rfl
@[simp] theorem modify_run (f : σ → σ) (s : σ) : (modify f : X σ Unit) s = .done (f s) () := rfl
@[simp] theorem fail_run (e : Err) (s : σ) : (fail e : X σ α) s = .fail e := rfl
@[simp] theorem throw_run (s : σ) : (throw : X σ α) s = .thrown s := rfl
@[simp] theorem assert_true : (assert true : X σ Unit) = pure () := rfl
@[simp] theorem assert_false : (assert false : X σ Unit) = fail .assert := rfl
@[simp] theorem guardUB_true : (guardUB true : X σ Unit) = pure () := rfl
@[simp] theorem guardUB_false : (guardUB false : X σ Unit) = fail .ub := rfl

theorem pure_bind' (a : α) (f : α → X σ β) : ((pure a : X σ α) >>= f) = f a := rfl

/-- `for (i = lo; i < lo + n; ++i) body(i)`. -/
def forUp (lo : Nat) : (n : Nat) → (Nat → X σ Unit) → X σ Unit
  | 0, _ => pure ()
  | n + 1, f => do
    f lo
    forUp (lo + 1) n f

/-- `for (i = lo + n; i > lo; --i) body(i)`. -/
def forDown (lo : Nat) : (n : Nat) → (Nat → X σ Unit) → X σ Unit
  | 0, _ => pure ()
  | n + 1, f => do
    f (lo + n + 1)
    forDown lo n f

/-- A loop whose state before iteration `k` is `S k`. -/
theorem forUp_done {lo n : Nat} {f : Nat → X σ Unit} (S : Nat → σ)
    (h : ∀ k, k < n → f (lo + k) (S k) = .done (S (k + 1)) ()) : forUp lo n f (S 0) = .done (S n) () := by
  induction n generalizing lo S with
  | zero => rfl
  | succ n ih =>
    simp only [forUp]
    have h0 := h 0 (by omega)
    rw [Nat.add_zero] at h0
    rw [bind_done h0]
    exact ih (fun k => S (k + 1)) (fun k hk => by
      have := h (k + 1) (by omega)
      rwa [show lo + (k + 1) = lo + 1 + k by omega] at this)

/-- Invariant rule for loops: `I k` holds before iteration `k`. -/
theorem forUp_ok {lo n : Nat} {f : Nat → X σ Unit} (I : Nat → σ → Prop) {s : σ} (h0 : I 0 s)
    (h : ∀ k s, k < n → I k s → ∃ s', f (lo + k) s = .done s' () ∧ I (k + 1) s') :
    ∃ s', forUp lo n f s = .done s' () ∧ I n s' := by
  induction n generalizing lo I s with
  | zero => exact ⟨s, rfl, h0⟩
  | succ n ih =>
    obtain ⟨s1, e1, i1⟩ := h 0 s (by omega) h0
    rw [Nat.add_zero] at e1
    obtain ⟨s2, e2, i2⟩ := ih (lo := lo + 1) (fun k => I (k + 1)) i1 (fun k s hk hI => by
      have := h (k + 1) s (by omega) hI
      rwa [show lo + (k + 1) = lo + 1 + k by omega] at this)
    exact ⟨s2, by simp only [forUp]; rw [bind_done e1]; exact e2, i2⟩

/-- A loop ended by an exception in iteration `m`. -/
theorem forUp_thrown {lo n : Nat} {f : Nat → X σ Unit} (S : Nat → σ) (m : Nat) (hm : m < n) {s' : σ}
    (h : ∀ k, k < m → f (lo + k) (S k) = .done (S (k + 1)) ()) (ht : f (lo + m) (S m) = .thrown s') :
    forUp lo n f (S 0) = .thrown s' := by
  induction m generalizing lo n S with
  | zero =>
    obtain ⟨n, rfl⟩ : ∃ k, n = k + 1 := ⟨n - 1, by omega⟩
    simp only [forUp]
    rw [Nat.add_zero] at ht
    exact bind_thrown ht
  | succ m ih =>
    obtain ⟨n, rfl⟩ : ∃ k, n = k + 1 := ⟨n - 1, by omega⟩
    simp only [forUp]
    have h0 := h 0 (by omega)
    rw [Nat.add_zero] at h0
    rw [bind_done h0]
    exact ih (fun k => S (k + 1)) (by omega) (fun k hk => by
      have := h (k + 1) (by omega)
      rwa [show lo + (k + 1) = lo + 1 + k by omega] at this)
      (by rwa [show lo + 1 + m = lo + (m + 1) by omega])

/-- A loop ended by an error in iteration `m`. -/
theorem forUp_fail {lo n : Nat} {f : Nat → X σ Unit} (S : Nat → σ) (m : Nat) (hm : m < n) {e : Err}
    (h : ∀ k, k < m → f (lo + k) (S k) = .done (S (k + 1)) ()) (ht : f (lo + m) (S m) = .fail e) :
    forUp lo n f (S 0) = .fail e := by
  induction m generalizing lo n S with
  | zero =>
    obtain ⟨n, rfl⟩ : ∃ k, n = k + 1 := ⟨n - 1, by omega⟩
    simp only [forUp]
    rw [Nat.add_zero] at ht
    exact bind_fail ht
  | succ m ih =>
    obtain ⟨n, rfl⟩ : ∃ k, n = k + 1 := ⟨n - 1, by omega⟩
    simp only [forUp]
    have h0 := h 0 (by omega)
    rw [Nat.add_zero] at h0
    rw [bind_done h0]
    exact ih (fun k => S (k + 1)) (by omega) (fun k hk => by
      have := h (k + 1) (by omega)
      rwa [show lo + (k + 1) = lo + 1 + k by omega] at this)
      (by rwa [show lo + 1 + m = lo + (m + 1) by omega])

/-- A descending loop whose state before its `k`-th iteration (loop variable `lo + n - k`) is `S k`. -/
theorem forDown_done {lo n : Nat} {f : Nat → X σ Unit} (S : Nat → σ)
    (h : ∀ k, k < n → f (lo + n - k) (S k) = .done (S (k + 1)) ()) : forDown lo n f (S 0) = .done (S n) () := by
  induction n generalizing S with
  | zero => rfl
  | succ n ih =>
    simp only [forDown]
    have h0 := h 0 (by omega)
    rw [Nat.sub_zero, ← Nat.add_assoc] at h0
    rw [bind_done h0]
    exact ih (fun k => S (k + 1)) (fun k hk => by
      have := h (k + 1) (by omega)
      rwa [show lo + (n + 1) - (k + 1) = lo + n - k by omega] at this)

/-- Run a computation on a part of the state. -/
def zoom {τ : Type} (proj : τ → σ) (put : τ → σ → τ) (m : X σ α) : X τ α := fun t =>
  match m (proj t) with
  | .done s a => .done (put t s) a
  | .thrown s => .thrown (put t s)
  | .fail e => .fail e

theorem zoom_done {τ : Type} {proj : τ → σ} {put : τ → σ → τ} {m : X σ α} {t : τ} {s : σ} {a : α} (h : m (proj t) = .done s a) :
    zoom proj put m t = .done (put t s) a := by
  simp [zoom, h]

end X
end Verif.Cpp
