import Verif.Proofs.Calls
/-! # Code which is generic in the reader and follows the rules for its methods, and which ends when there is an error -/

namespace Verif.Obey

/-- Rules. `K`: what is known about the reader. `may`: the method may be called. `step`: what is known after success. `failed`: the method failed. `bad`: panics which are
permitted in the code. -/
structure Rules (C : Type) (Res : C → Type) (K : Type) where
  may : K → C → Prop
  step : K → (c : C) → Res c → K → Prop
  failed : (c : C) → Res c → Bool
  bad : CPanic → Prop

variable {C : Type} {Res : C → Type} {K ε σ α β γ S : Type} {R : Rules C Res K}

/-- the code has ended with an error -/
def Over : Calls C Res (Except ε α × σ) → Prop
  | .ret (.error _, _) => True
  | _ => False

/-- The code follows the rules; afterwards `Q` holds if there was no error -/
def Ob (R : Rules C Res K) (Q : K → α → σ → Prop) : Calls C Res (Except ε α × σ) → K → Prop
  | .ret (.ok a, d), k => Q k a d
  | .ret (.error _, _), _ => True
  | .panic p, _ => R.bad p
  | .call c f, k => R.may k c ∧ ∀ r, (R.failed c r = true → Over (f r)) ∧ (R.failed c r = false → ∀ k', R.step k c r k' → Ob R Q (f r) k')

theorem Over.ob {Q : K → α → σ → Prop} {t : Calls C Res (Except ε α × σ)} {k : K} (h : Over t) : Ob R Q t k := by
  match t, h with
  | .ret (.error _, _), _ => trivial

theorem Ob.mono {Q Q' : K → α → σ → Prop} (hq : ∀ k a d, Q k a d → Q' k a d) (t : Calls C Res (Except ε α × σ)) : ∀ {k : K}, Ob R Q t k → Ob R Q' t k := by
  induction t with
  | ret a =>
    intro k h
    match a, h with
    | (.ok a, d), h => exact hq k a d h
    | (.error _, _), _ => trivial
  | panic p => intro k h; exact h
  | call c f ih => intro k h; exact ⟨h.1, fun r => ⟨(h.2 r).1, fun hr k' hk => ih r ((h.2 r).2 hr k' hk)⟩⟩

/-- the code `m`, if its own state is `d` -/
def OK (R : Rules C Res K) (m : CT C Res ε σ α) (d : σ) (k : K) (Q : K → α → σ → Prop) : Prop := Ob R Q (m.run d) k

section
variable {m : CT C Res ε σ α} {d : σ} {k : K} {Q : K → α → σ → Prop} {P : K → β → σ → Prop}

theorem OK.mono (h : OK R m d k Q) {Q' : K → α → σ → Prop} (hq : ∀ k a d, Q k a d → Q' k a d) : OK R m d k Q' := Ob.mono hq _ h

theorem ok_pure {a : α} (h : Q k a d) : OK R (pure a : CT C Res ε σ α) d k Q := h
theorem ok_fail {e : ε} : OK R (CT.fail e : CT C Res ε σ α) d k Q := trivial
theorem ok_panic {p : CPanic} (h : R.bad p) : OK R (CT.panic p : CT C Res ε σ α) d k Q := h
theorem ok_ofExcept {r : Except ε α} (h : ∀ a, r = .ok a → Q k a d) : OK R (CT.ofExcept r : CT C Res ε σ α) d k Q := by
  cases r with
  | ok a => exact h a rfl
  | error e => trivial

theorem OK.bind {f : α → CT C Res ε σ β} (hm : OK R m d k Q) (hf : ∀ k' a d', Q k' a d' → OK R (f a) d' k' P) : OK R (m >>= f) d k P := by
  have h : ∀ (t : Calls C Res (Except ε α × σ)) {k : K}, Ob R Q t k → Ob R P (t.bind fun
      | (.ok a, s') => (f a).run s'
      | (.error e, s') => .ret (.error e, s')) k := by
    intro t
    induction t with
    | ret a =>
      intro k h
      match a, h with
      | (.ok a, d), h => exact hf k a d h
      | (.error _, _), _ => trivial
    | panic p => intro k h; exact h
    | call c f' ih =>
      intro k h
      refine ⟨h.1, fun r => ⟨fun hr => ?_, fun hr k' hk => ih r ((h.2 r).2 hr k' hk)⟩⟩
      have := (h.2 r).1 hr
      dsimp only
      generalize f' r = t at this ⊢
      match t, this with
      | .ret (.error _, _), _ => trivial
  exact h _ hm

/-- the error is passed on -/
def Quits (f : ε → CT C Res ε σ β) : Prop := ∀ e d, Over ((f e).run d)

theorem OK.attempt {g : Except ε α → CT C Res ε σ β} (hm : OK R m d k Q) (hf : ∀ k' a d', Q k' a d' → OK R (g (.ok a)) d' k' P) (he : Quits fun e => g (.error e)) :
    OK R (CT.attempt m >>= g) d k P := by
  have h : ∀ (t : Calls C Res (Except ε α × σ)) {k : K}, Ob R Q t k → Ob R P (t.bind fun (r, s') => (g r).run s') k := by
    intro t
    induction t with
    | ret a =>
      intro k h
      match a, h with
      | (.ok a, d), h => exact hf k a d h
      | (.error e, d), _ => exact (he e d).ob
    | panic p => intro k h; exact h
    | call c f' ih =>
      intro k h
      refine ⟨h.1, fun r => ⟨fun hr => ?_, fun hr k' hk => ih r ((h.2 r).2 hr k' hk)⟩⟩
      have := (h.2 r).1 hr
      dsimp only
      generalize f' r = t at this ⊢
      match t, this with
      | .ret (.error e, d), _ => exact he e d
  have h1 := h _ hm
  show Ob R P ((CT.attempt m >>= g).run d) k
  rw [CT.run_bind]
  unfold CT.attempt
  dsimp only
  rw [Calls.bind_assoc]
  exact h1

/-- code whose result is an error anyway -/
theorem Quits.ofExcept {f : ε → Except ε α} (h : ∀ e, ∃ e', f e = .error e') (g : α → CT C Res ε σ β) : Quits (C := C) (Res := Res) (σ := σ) fun e => CT.ofExcept (f e) >>= g := by
  intro e d
  obtain ⟨e', h⟩ := h e
  dsimp only
  rw [h]
  trivial

end

/-! ## Execution -/

/-- What must hold after the call `c` -/
def FitAt (R : Rules C Res K) (A : K → S → Prop) (h : (c : C) → S → Outcome S (Res c)) (k : K) (s : S) (c : C) : Prop := match h c s with
  | .ret r s' => R.failed c r = true ∨ R.failed c r = false ∧ ∃ k', R.step k c r k' ∧ A k' s'
  | .panic p => R.bad p
  | .unspecified => False

/-- The implementation `h` of the methods is correct for code which follows the rules; `A`: relation between what is known and the state -/
def Fit (R : Rules C Res K) (A : K → S → Prop) (h : (c : C) → S → Outcome S (Res c)) : Prop := ∀ k s c, A k s → R.may k c → FitAt R A h k s c

theorem Ob.run {A : K → S → Prop} {h : (c : C) → S → Outcome S (Res c)} (hA : Fit R A h) {Q : K → α → σ → Prop} (t : Calls C Res (Except ε α × σ)) :
    ∀ {k : K} {s : S}, Ob R Q t k → A k s → match t.run h s with
    | .ret (.ok a, d) s' => ∃ k', A k' s' ∧ Q k' a d
    | .ret (.error _, _) _ => True
    | .panic p => R.bad p
    | .unspecified => False := by
  induction t with
  | ret a =>
    intro k s ho hs
    match a, ho with
    | (.ok a, d), ho => exact ⟨k, hs, ho⟩
    | (.error _, _), _ => trivial
  | panic p => intro k s ho hs; exact ho
  | call c f ih =>
    intro k s ho hs
    have h1 := hA k s c hs ho.1
    unfold FitAt at h1
    rw [Calls.run]
    cases hh : h c s with
    | ret r s' =>
      rw [hh] at h1
      dsimp only at h1 ⊢
      rcases h1 with h1 | ⟨h0, k', h1, h2⟩
      · have h2 := (ho.2 r).1 h1
        revert h2
        match f r with
        | .ret (.error _, _) => exact fun _ => trivial
        | .ret (.ok _, _) => exact False.elim
        | .panic _ => exact False.elim
        | .call _ _ => exact False.elim
      · exact ih r ((ho.2 r).2 h0 k' h1) h2
    | panic p => rw [hh] at h1; exact h1
    | unspecified => rw [hh] at h1; exact h1

end Verif.Obey
