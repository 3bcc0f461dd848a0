/-!
# Prelude: the computation monad of the model

A Rust method `fn f(&mut self, ..) -> Result<T, E>` is modelled as `M E S T`, a function from the
state before the call to a result which carries the state after the call, both for `Ok` and for `Err`
(Rust keeps the modifications made before an error was returned).
Panics are error values as well (see the error types of the individual models).
-/

namespace Verif

/-- Result of running a modelled method: outcome and state after the call. -/
inductive Res (ε σ α : Type) where
  | ok (a : α) (s : σ)
  | err (e : ε) (s : σ)
deriving Repr, DecidableEq

/-- State and error monad keeping the state on error. -/
structure M (ε σ α : Type) where
  /-- run the computation in the given state -/
  run : σ → Res ε σ α

namespace M
variable {ε σ α β : Type}

/-- `Ok(a)` -/
protected def pure (a : α) : M ε σ α := ⟨fun s => .ok a s⟩

/-- The operator `?`: errors are returned to the caller -/
protected def bind (m : M ε σ α) (f : α → M ε σ β) : M ε σ β := ⟨fun s =>
  match m.run s with
  | .ok a s' => (f a).run s'
  | .err e s' => .err e s'⟩

/-- `Ok` and `?` as monad -/
instance : Monad (M ε σ) where
  pure := M.pure
  bind := M.bind

/-- `Err(e)` -/
def fail (e : ε) : M ε σ α := ⟨fun s => .err e s⟩
/-- access to the fields -/
def get : M ε σ σ := ⟨fun s => .ok s s⟩
/-- assignment to all fields -/
def set (s : σ) : M ε σ Unit := ⟨fun _ => .ok () s⟩
/-- assignment to some fields -/
def modify (f : σ → σ) : M ε σ Unit := ⟨fun s => .ok () (f s)⟩
/-- read a component of the state -/
def gets (f : σ → α) : M ε σ α := ⟨fun s => .ok (f s) s⟩

@[simp] theorem run_pure (a : α) (s : σ) : (pure a : M ε σ α).run s = .ok a s := rfl
@[simp] theorem run_fail (e : ε) (s : σ) : (fail e : M ε σ α).run s = .err e s := rfl
@[simp] theorem run_get (s : σ) : (get : M ε σ σ).run s = .ok s s := rfl
@[simp] theorem run_gets (f : σ → α) (s : σ) : (gets f : M ε σ α).run s = .ok (f s) s := rfl
@[simp] theorem run_set (s s' : σ) : (set s' : M ε σ Unit).run s = .ok () s' := rfl
@[simp] theorem run_modify (f : σ → σ) (s : σ) : (modify f : M ε σ Unit).run s = .ok () (f s) := rfl

theorem run_bind (m : M ε σ α) (f : α → M ε σ β) (s : σ) :
    (m >>= f).run s = match m.run s with
      | .ok a s' => (f a).run s'
      | .err e s' => .err e s' := rfl

theorem bind_ok {m : M ε σ α} {f : α → M ε σ β} {s s' : σ} {a : α} (h : m.run s = .ok a s') :
    (m >>= f).run s = (f a).run s' := by rw [run_bind, h]

theorem bind_err {m : M ε σ α} {f : α → M ε σ β} {s s' : σ} {e : ε} (h : m.run s = .err e s') :
    (m >>= f).run s = .err e s' := by rw [run_bind, h]

theorem bind_eq_ok {m : M ε σ α} {f : α → M ε σ β} {s s' : σ} {b : β} :
    (m >>= f).run s = .ok b s' ↔ ∃ a s1, m.run s = .ok a s1 ∧ (f a).run s1 = .ok b s' := by
  rw [run_bind]
  cases h : m.run s with
  | ok a s1 =>
    constructor
    · intro h; exact ⟨a, s1, rfl, h⟩
    · rintro ⟨_, _, h1, h2⟩; cases h1; exact h2
  | err e s1 => simp

theorem bind_eq_err {m : M ε σ α} {f : α → M ε σ β} {s s' : σ} {e : ε} :
    (m >>= f).run s = .err e s' ↔
      m.run s = .err e s' ∨ ∃ a s1, m.run s = .ok a s1 ∧ (f a).run s1 = .err e s' := by
  rw [run_bind]
  cases h : m.run s with
  | ok a s1 =>
    constructor
    · intro h; exact .inr ⟨a, s1, rfl, h⟩
    · rintro (h1 | ⟨_, _, h1, h2⟩)
      · cases h1
      · cases h1; exact h2
  | err e s1 => simp

@[simp] theorem run_ite (c : Prop) [Decidable c] (a b : M ε σ α) (s : σ) :
    (if c then a else b).run s = if c then a.run s else b.run s := by split <;> rfl

theorem ext {a b : M ε σ α} (h : ∀ s, a.run s = b.run s) : a = b := by
  cases a; cases b; congr; funext s; exact h s

instance : LawfulMonad (M ε σ) := LawfulMonad.mk'
  (id_map := by
    intro α x; apply M.ext; intro s
    show (match x.run s with | .ok a s' => Res.ok a s' | .err e s' => Res.err e s') = x.run s
    cases x.run s <;> rfl)
  (pure_bind := by intros; rfl)
  (bind_assoc := by
    intro α β γ x f g; apply M.ext; intro s
    simp only [run_bind]
    cases x.run s <;> rfl)

end M
end Verif
