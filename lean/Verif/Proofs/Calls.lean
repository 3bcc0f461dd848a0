import Verif.Model.Calls
import Verif.Spec.Answer
import Verif.Proofs.Abs.Step
import Verif.Proofs.Prog
/-! # Code which is generic in the reader: basic facts -/

namespace Verif

section
variable {C : Type} {Res : C → Type} {ε σ α β γ S : Type}

namespace Calls

theorem run_bind (h : (c : C) → S → Outcome S (Res c)) (t : Calls C Res α) (f : α → Calls C Res β) : ∀ s : S, (t.bind f).run h s = match t.run h s with
    | .ret a s' => (f a).run h s'
    | .panic p => .panic p
    | .unspecified => .unspecified := by
  induction t with
  | ret a => intro s; rfl
  | panic p => intro s; rfl
  | call c k ih =>
    intro s
    rw [bind, run, run]
    cases h c s with
    | ret r s' => exact ih r s'
    | panic p => rfl
    | unspecified => rfl

theorem bind_assoc (t : Calls C Res α) (f : α → Calls C Res β) (g : β → Calls C Res γ) : (t.bind f).bind g = t.bind fun a => (f a).bind g := by
  induction t with
  | ret a => rfl
  | panic p => rfl
  | call c k ih =>
    rw [bind, bind, bind]
    congr 1
    exact funext ih

theorem bind_ret (t : Calls C Res α) : t.bind .ret = t := by
  induction t with
  | ret a => rfl
  | panic p => rfl
  | call c k ih =>
    rw [bind]
    congr 1
    exact funext ih

end Calls

namespace CT

theorem ext {m m' : CT C Res ε σ α} (h : ∀ s, m.run s = m'.run s) : m = m' := by
  obtain ⟨m⟩ := m
  obtain ⟨m'⟩ := m'
  exact congrArg _ (funext h)

theorem run_bind (m : CT C Res ε σ α) (f : α → CT C Res ε σ β) (s : σ) : (m >>= f).run s = (m.run s).bind fun
    | (.ok a, s') => (f a).run s'
    | (.error e, s') => .ret (.error e, s') := rfl

theorem bind_assoc (m : CT C Res ε σ α) (f : α → CT C Res ε σ β) (g : β → CT C Res ε σ γ) : (m >>= f) >>= g = m >>= fun a => f a >>= g := by
  refine ext fun s => ?_
  rw [run_bind, run_bind, run_bind, Calls.bind_assoc]
  congr 1
  funext r
  match r with
  | (.ok a, s') => rfl
  | (.error e, s') => rfl

theorem pure_bind (a : α) (f : α → CT C Res ε σ β) : (pure a : CT C Res ε σ α) >>= f = f a := rfl
theorem fail_bind (e : ε) (f : α → CT C Res ε σ β) : (fail e : CT C Res ε σ α) >>= f = fail e := rfl

end CT

/-! ## What the code does at a place -/

variable {K E τ : Type}

/-- What is considered: errors (if `errs`), and code which is not used as documented (if `strict`) -/
structure Meets.Cond where
  errs : Prop
  strict : Prop

instance : CoeSort Meets.Cond Prop := ⟨Meets.Cond.errs⟩

/-- incorrect usage causes a panic -/
abbrev Meets.never : α → Prop := fun _ => False

def Meets.Post (R : K → S → Prop) (kd : ε → E) (bad : CPanic → Prop) (b : Meets.Cond) (o : Outcome S (Except ε α × σ)) (d : σ) (ans : Answer E β) (P : β → α → K → Prop) (Q : α → Prop) : Prop := match ans with
  | .ok x => ∃ a k' s', o = .ret (.ok a, d) s' ∧ R k' s' ∧ P x a k'
  | .err e => b → ∃ y d' s', o = .ret (.error y, d') s' ∧ kd y = e
  | .misuse => b.strict → (∃ p, o = .panic p ∧ bad p) ∨ ∃ a d' s', o = .ret (.ok a, d') s' ∧ Q a

/-- If the state `s` of the reader is at the place `k` (`R k s`), then the code does what has been specified as `ans`. The own state of the code is not changed.
Errors are only considered if `b`. In case of incorrect usage there is a panic (`bad`), or the result says that there will be one (`Q`); only considered if `b.strict`. -/
def Meets (h : (c : C) → S → Outcome S (Res c)) (R : K → S → Prop) (kd : ε → E) (bad : CPanic → Prop) (b : Meets.Cond) (m : CT C Res ε σ α) (d : σ) (k : K) (ans : Answer E β) (P : β → α → K → Prop)
    (Q : α → Prop) : Prop :=
  ∀ s, R k s → Meets.Post R kd bad b ((m.run d).run h s) d ans P Q

namespace Meets
variable {h : (c : C) → S → Outcome S (Res c)} {R : K → S → Prop} {kd : ε → E} {bad : CPanic → Prop} {b : Cond} {m : CT C Res ε σ α} {d : σ} {k : K} {ans : Answer E β} {P P' : β → α → K → Prop}
  {Q' : α → Prop}

theorem mono (hm : Meets h R kd bad b m d k ans P Q') (hp : ∀ x a k', P x a k' → P' x a k') : Meets h R kd bad b m d k ans P' Q' := by
  intro s hs
  have h1 := hm s hs
  cases ans with
  | ok x =>
    obtain ⟨a, k', s', h2, h3, h4⟩ := h1
    exact ⟨a, k', s', h2, h3, hp _ _ _ h4⟩
  | err e => exact h1
  | misuse => exact h1

theorem misuse {p : CPanic} (hm : b.strict → bad p ∧ ∀ s, m.run s = .panic p) : Meets h R kd bad b m d k (.misuse : Answer E β) P Q' := fun s _ hs => by
  refine .inl ⟨p, ?_, (hm hs).1⟩
  rw [(hm hs).2]
  rfl

theorem pure {x : β} {a : α} (hp : P x a k) : Meets h R kd bad b (Pure.pure a : CT C Res ε σ α) d k (.ok x) P Q' := fun s hs => ⟨a, k, s, rfl, hs, hp⟩

/-- the result says that the usage was incorrect -/
theorem flag {a : α} (hq : Q' a) : Meets h R kd bad b (Pure.pure a : CT C Res ε σ α) d k (.misuse : Answer E β) P Q' := fun s _ _ => .inr ⟨a, d, s, rfl, hq⟩

theorem fail {e : ε} {y : E} (he : kd e = y) : Meets h R kd bad b (CT.fail e : CT C Res ε σ α) d k (.err y : Answer E β) P Q' := fun s _ _ => ⟨e, d, s, rfl, he⟩

/-- `g` panics if the result says that the usage was incorrect -/
theorem bindQ {g : α → CT C Res ε σ γ} {l : β → Answer E τ} {P2 : τ → γ → K → Prop} {Q : γ → Prop} (hm : Meets h R kd bad b m d k ans P Q')
    (hg : ∀ x a k', P x a k' → ans = .ok x → Meets h R kd bad b (g a) d k' (l x) P2 Q) (hq : ∀ a d', Q' a → ∃ p, (g a).run d' = .panic p ∧ bad p) :
    Meets h R kd bad b (m >>= g) d k (ans >>= l) P2 Q := by
  intro s hs
  have h1 := hm s hs
  cases ans with
  | ok x =>
    obtain ⟨a, k', s', h2, h3, h4⟩ := h1
    have h5 := hg x a k' h4 rfl s' h3
    show Post _ _ _ _ _ _ (l x) _ _
    have h6 : ((m >>= g).run d).run h s = ((g a).run d).run h s' := by
      rw [CT.run_bind, Calls.run_bind, h2]
    rw [h6]
    exact h5
  | err e =>
    intro hb
    obtain ⟨y, d', s', h2, h3⟩ := h1 hb
    refine ⟨y, d', s', ?_, h3⟩
    rw [CT.run_bind, Calls.run_bind, h2]
    rfl
  | misuse =>
    intro hb
    rcases h1 hb with ⟨p, h2, h3⟩ | ⟨a, d', s', h2, h3⟩
    · exact .inl ⟨p, by rw [CT.run_bind, Calls.run_bind, h2], h3⟩
    · obtain ⟨p, h4, h5⟩ := hq a d' h3
      refine .inl ⟨p, ?_, h5⟩
      rw [CT.run_bind, Calls.run_bind, h2]
      dsimp only
      rw [h4]
      rfl

theorem bind {g : α → CT C Res ε σ γ} {l : β → Answer E τ} {P2 : τ → γ → K → Prop} {Q : γ → Prop} (hm : Meets h R kd bad b m d k ans P never)
    (hg : ∀ x a k', P x a k' → ans = .ok x → Meets h R kd bad b (g a) d k' (l x) P2 Q) : Meets h R kd bad b (m >>= g) d k (ans >>= l) P2 Q :=
  hm.bindQ hg fun _ _ h => h.elim

/-- the specification has one step less -/
theorem bind' {g : α → CT C Res ε σ γ} {ans' : Answer E τ} {P2 : τ → γ → K → Prop} {Q : γ → Prop} (hm : Meets h R kd bad b m d k ans P never)
    (he : ∃ l, ans' = ans >>= l ∧ ∀ x a k', P x a k' → ans = .ok x → Meets h R kd bad b (g a) d k' (l x) P2 Q) : Meets h R kd bad b (m >>= g) d k ans' P2 Q := by
  obtain ⟨l, rfl, hg⟩ := he
  exact hm.bind hg

/-- the result of the code is given to other code, which returns if it is an error -/
theorem attempt {g : Except ε α → CT C Res ε σ γ} {l : β → Answer E τ} {P2 : τ → γ → K → Prop} {Q : γ → Prop} (hm : Meets h R kd bad b m d k ans P never)
    (hg : ∀ x a k', P x a k' → ans = .ok x → Meets h R kd bad b (g (.ok a)) d k' (l x) P2 Q)
    (he : b → ∀ y d', ∃ y', (g (.error y)).run d' = .ret (.error y', d') ∧ kd y = kd y') : Meets h R kd bad b (CT.attempt m >>= g) d k (ans >>= l) P2 Q := by
  intro s hs
  have h1 := hm s hs
  have h0 : ((CT.attempt m >>= g).run d).run h s = match (m.run d).run h s with
    | .ret (r, d') s' => ((g r).run d').run h s'
    | .panic p => .panic p
    | .unspecified => .unspecified := by
    rw [CT.run_bind, Calls.run_bind]
    unfold CT.attempt
    dsimp only
    rw [Calls.run_bind]
    cases (m.run d).run h s with
    | ret a s' => rfl
    | panic p => rfl
    | unspecified => rfl
  cases ans with
  | ok x =>
    obtain ⟨a, k', s', h2, h3, h4⟩ := h1
    have h5 := hg x a k' h4 rfl s' h3
    show Post _ _ _ _ _ _ (l x) _ _
    rw [h0, h2]
    exact h5
  | err e =>
    intro hb
    obtain ⟨y, d', s', h2, h3⟩ := h1 hb
    obtain ⟨y', h4, h5⟩ := he hb y d'
    refine ⟨y', d', s', ?_, h5.symm.trans h3⟩
    rw [h0, h2]
    dsimp only
    rw [h4]
    rfl
  | misuse =>
    intro hb
    rcases h1 hb with ⟨p, h2, h3⟩ | ⟨_, _, _, _, h3⟩
    · exact .inl ⟨p, by rw [h0, h2], h3⟩
    · exact h3.elim

theorem attempt_ok {f : Except ε α → CT C Res ε σ γ} {a : α} : CT.attempt (Pure.pure a : CT C Res ε σ α) >>= f = f (.ok a) := rfl

end Meets
end

/-! ## The stream reader -/

namespace Reader
open Abs (St RepC)
open Json (Tops)
open Cursor (Cur Step Kind Val kindOf valOf)

variable {st : Settings} {T : Tops} {k : Cur}

/-- the reader is at the cursor -/
def AtCur (st : Settings) (T : Tops) (k : Cur) (s : Option St) : Prop := ∃ s0, s = some s0 ∧ RepC st T k s0

/-- result of a method as answer -/
def stepAnswer : Step → Answer Kind (Val × Cur)
  | .ok v c => .ok (v, c)
  | .err e _ => .err e
  | .stop e => .err e
  | .misuse => .misuse

/-- A method of the reader does what is specified -/
theorem handle_step {op : Op} (hct : op ≠ .consumeTrailingWhitespace) {s : Option St} (hs : AtCur st T k s) : match stepAnswer (Cursor.step st k op) with
    | .ok (v, c) => ∃ o s', handle op s = .ret (.ok o) s' ∧ valOf o = v ∧ AtCur st T c s'
    | .err e => e ≠ .other → ∃ x s', handle op s = .ret (.error x) s' ∧ kindOf x = e
    | .misuse => True := by
  obtain ⟨s, rfl, hs⟩ := hs
  have h1 := Abs.step_sim hs op hct
  unfold handle
  dsimp only
  cases hst : Cursor.step st k op with
  | ok v c =>
    rw [hst] at h1
    obtain ⟨o, s', h2, h3, h4⟩ := h1
    refine ⟨o, some s', ?_, h3, s', rfl, h4⟩
    rw [h2]
    dsimp only
    rw [if_neg hct]
  | err e c =>
    rw [hst] at h1
    obtain ⟨x, s', h2, h3, h4, h5⟩ := h1
    intro hne
    rw [h2]
    cases x with
    | panic p => exact absurd h3.symm hne
    | _ => exact ⟨_, _, rfl, h3⟩
  | stop e =>
    rw [hst] at h1
    obtain ⟨x, s', h2, h3⟩ := h1
    intro hne
    rw [h2]
    cases x with
    | panic p => exact absurd h3.symm hne
    | _ => exact ⟨_, _, rfl, h3⟩
  | misuse => trivial

end Reader
end Verif
