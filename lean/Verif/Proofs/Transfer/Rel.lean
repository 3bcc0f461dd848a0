import Verif.Model.Transfer
import Verif.Proofs.RelReader
import Verif.Proofs.Writer.Emit
/-!
# `transfer_to` on two readers which are related by a `Sim`
-/

namespace Verif.Writer

/-- The same effects, and results which are related by `P` -/
def Tree.Rel {β γ : Type} (P : β → γ → Prop) : Tree β → Tree γ → Prop
  | .ret a, .ret b => P a b
  | .panic p, .panic q => p = q
  | .emit bs k, .emit bs' k' => bs = bs' ∧ ∀ r, Tree.Rel P (k r) (k' r)
  | .flush k, .flush k' => ∀ r, Tree.Rel P (k r) (k' r)
  | _, _ => False

theorem Tree.Rel.bind {β γ β' γ' : Type} {P : β → γ → Prop} {Q : β' → γ' → Prop} {f : β → Tree β'} {g : γ → Tree γ'} :
    ∀ {t : Tree β} {u : Tree γ}, Tree.Rel P t u → (∀ a b, P a b → Tree.Rel Q (f a) (g b)) → Tree.Rel Q (t.bind f) (u.bind g)
  | .ret a, .ret b, h, hf => hf a b h
  | .panic _, .panic _, h, _ => h
  | .emit _ _, .emit _ _, h, hf => ⟨h.1, fun r => (h.2 r).bind hf⟩
  | .flush _, .flush _, h, hf => fun r => (h r).bind hf

theorem Tree.Rel.refl {β : Type} {P : β → β → Prop} (hP : ∀ a, P a a) : ∀ t : Tree β, Tree.Rel P t t
  | .ret a => hP a
  | .panic _ => rfl
  | .emit _ k => ⟨rfl, fun r => Tree.Rel.refl hP (k r)⟩
  | .flush k => fun r => Tree.Rel.refl hP (k r)

theorem Tree.Rel.mono {β γ : Type} {P Q : β → γ → Prop} (hP : ∀ a b, P a b → Q a b) : ∀ {t : Tree β} {u : Tree γ}, Tree.Rel P t u → Tree.Rel Q t u
  | .ret a, .ret b, h => hP a b h
  | .panic _, .panic _, h => h
  | .emit _ _, .emit _ _, h => ⟨h.1, fun r => (h.2 r).mono hP⟩
  | .flush _, .flush _, h => fun r => (h r).mono hP

/-- related computations do the same with the underlying `Write` -/
theorem Tree.Rel.run {β γ : Type} {P : β → γ → Prop} : ∀ {t : Tree β} {u : Tree γ}, Tree.Rel P t u → ∀ s,
    (∃ a b s', t.run.run s = .ok a s' ∧ u.run.run s = .ok b s' ∧ P a b) ∨ ∃ e s', t.run.run s = .err e s' ∧ u.run.run s = .err e s'
  | .ret _, .ret _, h, _ => .inl ⟨_, _, _, rfl, rfl, h⟩
  | .panic _, .panic _, h, _ => by cases h; exact .inr ⟨_, _, rfl, rfl⟩
  | .emit bs _, .emit _ _, h, s => by
    obtain ⟨rfl, h⟩ := h
    simp only [Tree.run]
    rcases (writeBytes bs).run s with ⟨⟨⟩, s'⟩ | ⟨_ | _, s'⟩
    · exact (h _).run s'
    · exact (h _).run s'
    · exact .inr ⟨_, _, rfl, rfl⟩
  | .flush _, .flush _, h, s => by
    simp only [Tree.run]
    rcases Writer.flush.run s with ⟨⟨⟩, s'⟩ | ⟨_ | _, s'⟩
    · exact (h _).run s'
    · exact (h _).run s'
    · exact .inr ⟨_, _, rfl, rfl⟩

/-- The same effects, and results which are related by `P`, unless the first computation ends with a result which satisfies `X` -/
def Tree.RelX {β γ : Type} (X : β → Prop) (P : β → γ → Prop) : Tree β → Tree γ → Prop
  | .ret a, .ret b => X a ∨ P a b
  | .ret a, _ => X a
  | .panic p, .panic q => p = q
  | .emit bs k, .emit bs' k' => bs = bs' ∧ ∀ r, Tree.RelX X P (k r) (k' r)
  | .flush k, .flush k' => ∀ r, Tree.RelX X P (k r) (k' r)
  | _, _ => False

theorem Tree.RelX.x {β γ : Type} {X : β → Prop} {P : β → γ → Prop} {a : β} (h : X a) (u : Tree γ) : Tree.RelX X P (.ret a) u := by
  cases u <;> first | exact .inl h | exact h

theorem Tree.RelX.bind {β γ β' γ' : Type} {X : β → Prop} {X' : β' → Prop} {P : β → γ → Prop} {Q : β' → γ' → Prop} {f : β → Tree β'} {g : γ → Tree γ'} :
    ∀ {t : Tree β} {u : Tree γ}, Tree.RelX X P t u → (∀ a, X a → ∃ b, f a = .ret b ∧ X' b) → (∀ a b, P a b → Tree.RelX X' Q (f a) (g b)) → Tree.RelX X' Q (t.bind f) (u.bind g)
  | .ret a, .ret b, h, hx, hf => by
    rcases h with h | h
    · obtain ⟨b', h1, h2⟩ := hx a h
      show Tree.RelX X' Q (f a) _
      rw [h1]
      exact .x h2 _
    · exact hf a b h
  | .ret a, .panic _, h, hx, _ => by
    obtain ⟨b', h1, h2⟩ := hx a h
    show Tree.RelX X' Q (f a) _
    rw [h1]
    exact .x h2 _
  | .ret a, .emit _ _, h, hx, _ => by
    obtain ⟨b', h1, h2⟩ := hx a h
    show Tree.RelX X' Q (f a) _
    rw [h1]
    exact .x h2 _
  | .ret a, .flush _, h, hx, _ => by
    obtain ⟨b', h1, h2⟩ := hx a h
    show Tree.RelX X' Q (f a) _
    rw [h1]
    exact .x h2 _
  | .panic _, .panic _, h, _, _ => h
  | .emit _ _, .emit _ _, h, hx, hf => ⟨h.1, fun r => (h.2 r).bind hx hf⟩
  | .flush _, .flush _, h, hx, hf => fun r => (h r).bind hx hf

theorem Tree.RelX.rel {β γ : Type} {X : β → Prop} {P : β → γ → Prop} (hX : ∀ a, ¬ X a) : ∀ {t : Tree β} {u : Tree γ}, Tree.RelX X P t u → Tree.Rel P t u
  | .ret a, .ret b, h => h.resolve_left (hX a)
  | .ret a, .panic _, h => hX a h
  | .ret a, .emit _ _, h => hX a h
  | .ret a, .flush _, h => hX a h
  | .panic _, .panic _, h => h
  | .emit _ _, .emit _ _, h => ⟨h.1, fun r => (h.2 r).rel hX⟩
  | .flush _, .flush _, h => fun r => (h r).rel hX

theorem Tree.Rel.relX {β γ : Type} {X : β → Prop} {P : β → γ → Prop} : ∀ {t : Tree β} {u : Tree γ}, Tree.Rel P t u → Tree.RelX X P t u
  | .ret _, .ret _, h => .inr h
  | .panic _, .panic _, h => h
  | .emit _ _, .emit _ _, h => ⟨h.1, fun r => (h.2 r).relX⟩
  | .flush _, .flush _, h => fun r => (h r).relX

theorem Tree.RelX.run {β γ : Type} {X : β → Prop} {P : β → γ → Prop} : ∀ {t : Tree β} {u : Tree γ}, Tree.RelX X P t u → ∀ s,
    (∃ a s', t.run.run s = .ok a s' ∧ (X a ∨ ∃ b, u.run.run s = .ok b s' ∧ P a b)) ∨ ∃ e s', t.run.run s = .err e s' ∧ u.run.run s = .err e s'
  | .ret _, .ret _, h, _ => .inl ⟨_, _, rfl, h.imp_right fun h => ⟨_, rfl, h⟩⟩
  | .ret _, .panic _, h, _ => .inl ⟨_, _, rfl, .inl h⟩
  | .ret _, .emit _ _, h, _ => .inl ⟨_, _, rfl, .inl h⟩
  | .ret _, .flush _, h, _ => .inl ⟨_, _, rfl, .inl h⟩
  | .panic _, .panic _, h, _ => by cases h; exact .inr ⟨_, _, rfl, rfl⟩
  | .emit bs _, .emit _ _, h, s => by
    obtain ⟨rfl, h⟩ := h
    simp only [Tree.run]
    rcases (writeBytes bs).run s with ⟨⟨⟩, s'⟩ | ⟨_ | _, s'⟩
    · exact (h _).run s'
    · exact (h _).run s'
    · exact .inr ⟨_, _, rfl, rfl⟩
  | .flush _, .flush _, h, s => by
    simp only [Tree.run]
    rcases Writer.flush.run s with ⟨⟨⟩, s'⟩ | ⟨_ | _, s'⟩
    · exact (h _).run s'
    · exact (h _).run s'
    · exact .inr ⟨_, _, rfl, rfl⟩

end Verif.Writer

namespace Verif.Transfer
open Reader Writer

variable {σ1 σ2 : Type} [ByteSource σ1] [ByteSource σ2] {S : Sim σ1 σ2} {α β : Type}

/-- Related results: the same, with the same state of the writer and related states of the reader -/
def Post (S : Sim σ1 σ2) (x : Except TErr α × (RState σ1 × Core)) (y : Except TErr α × (RState σ2 × Core)) : Prop :=
  x.1 = y.1 ∧ x.2.2 = y.2.2 ∧ (S.RRel (.idle false) x.2.1 y.2.1 ∨ ∃ e, x.1 = .error (.reader e) ∧ S.ERel e x.2.1 y.2.1)

/-- an error after which the readers are not related -/
def XBad (S : Sim σ1 σ2) (x : Except TErr α × (RState σ1 × Core)) : Prop := ∃ e, x.1 = .error (.reader e) ∧ S.X e

/-- Related computations -/
def XR (S : Sim σ1 σ2) (m1 : X σ1 α) (m2 : X σ2 α) : Prop := ∀ s1 s2 c, S.RRel (.idle false) s1 s2 → Tree.RelX (XBad S) (Post S) (m1.run (s1, c)) (m2.run (s2, c))

theorem XR.bind {m1 : X σ1 α} {m2 : X σ2 α} {f1 : α → X σ1 β} {f2 : α → X σ2 β} (hm : XR S m1 m2) (hf : ∀ a, XR S (f1 a) (f2 a)) : XR S (m1 >>= f1) (m2 >>= f2) := by
  intro s1 s2 c hs
  rw [T.run_bind, T.run_bind]
  refine (hm s1 s2 c hs).bind ?_ ?_
  · rintro ⟨x, s1', c1⟩ ⟨e, h1, h2⟩
    dsimp only at h1
    subst h1
    exact ⟨_, rfl, e, rfl, h2⟩
  rintro ⟨x, s1', c1⟩ ⟨y, s2', c2⟩ ⟨h1, h2, h3⟩
  dsimp only at h1 h2 h3
  subst h1 h2
  cases x with
  | error e =>
    refine .inr ⟨rfl, rfl, h3.imp_right ?_⟩
    rintro ⟨e', h, hu⟩
    cases h
    exact ⟨_, rfl, hu⟩
  | ok a =>
    rcases h3 with h3 | ⟨e, h, _⟩
    · exact hf a _ _ _ h3
    · cases h

theorem XR.pure (a : α) : XR S (pure a) (pure a) := fun _ _ _ hs => .inr ⟨rfl, rfl, .inl hs⟩

theorem XR.ite {p : Prop} [Decidable p] {a1 b1 : X σ1 α} {a2 b2 : X σ2 α} (ha : p → XR S a1 a2) (hb : ¬ p → XR S b1 b2) :
    XR S (if p then a1 else b1) (if p then a2 else b2) := by
  by_cases h : p
  · rw [if_pos h, if_pos h]; exact ha h
  · rw [if_neg h, if_neg h]; exact hb h

theorem XR.get {f1 : RState σ1 × Core → X σ1 β} {f2 : RState σ2 × Core → X σ2 β}
    (h : ∀ s1 s2 c, S.RRel (.idle false) s1 s2 → Tree.RelX (XBad S) (Post S) ((f1 (s1, c)).run (s1, c)) ((f2 (s2, c)).run (s2, c))) : XR S (T.get >>= f1) (T.get >>= f2) :=
  fun s1 s2 c hs => h s1 s2 c hs

theorem XR.onReader {m1 : R σ1 α} {m2 : R σ2 α} (h : S.IT m1 m2) : XR S (onReader m1) (onReader m2) := by
  intro s1 s2 c hs
  have h := h s1 s2 hs
  unfold RelAt at h
  unfold Transfer.onReader
  dsimp only
  cases h1 : m1.run s1 with
  | ok a t1 =>
    cases h2 : m2.run s2 with
    | ok b t2 =>
      rw [h1, h2] at h
      obtain ⟨rfl, h⟩ := h
      exact .inr ⟨rfl, rfl, .inl h⟩
    | err e t2 => rw [h1, h2] at h; exact h.elim
  | err e t1 =>
    cases h2 : m2.run s2 with
    | ok b t2 => rw [h1, h2] at h; exact .inl ⟨_, rfl, h⟩
    | err e' t2 =>
      rw [h1, h2] at h
      rcases h with h | ⟨rfl, h⟩
      · exact .inl ⟨_, rfl, h⟩
      · exact .inr ⟨rfl, rfl, .inr ⟨_, rfl, h⟩⟩

theorem XR.onWriter (m : W α) : XR S (onWriter m) (onWriter m) := by
  intro s1 s2 c hs
  refine (Tree.Rel.refl (P := Eq) (fun _ => rfl) (m.run c)).relX.bind (X := fun _ => False) (fun _ h => h.elim) ?_
  rintro ⟨x, c'⟩ _ rfl
  cases x <;> exact .inr ⟨rfl, rfl, .inl hs⟩

theorem transferFillT : ∀ (n : Nat) (out : Bytes), S.IT (transferFill n out) (transferFill n out) := by
  intro n
  induction n with
  | zero => intro out; exact fun s1 s2 h => .inr ⟨rfl, .of_panic id id⟩
  | succ n ih =>
    intro out
    refine RelT.ite (fun _ => ?_) fun _ => Sim.pureP _
    refine RelT.bind Sim.readStringBytesT fun r => ?_
    refine RelT.ite (fun _ => Sim.internalPanic _ _) fun _ => ?_
    exact RelT.ite (fun _ => Sim.pureP _) fun _ => ih _

theorem transferPieceT : S.IT transferPiece transferPiece := by
  refine RelT.bind (transferFillT _ _) fun r => ?_
  obtain ⟨e, bs⟩ := r
  dsimp only
  cases Utf8.toStrUnchecked bs with
  | some t => exact Sim.pureP _
  | none => exact Sim.internalPanic _ _

theorem fuel_eq (hX : ¬ S.X .outOfFuel) {s1 : RState σ1} {s2 : RState σ2} (h : S.RRel (.idle false) s1 s2) : fuel s1 = fuel s2 :=
  (Sim.fuel_le h).resolve_right fun h => hX h.2

theorem transferStringLoop_rel (hX : ¬ S.X .outOfFuel) (n : Nat) : XR S (transferStringLoop n) (transferStringLoop n) := by
  induction n with
  | zero => exact XR.onReader fun _ _ _ => .inr ⟨rfl, .of_panic id id⟩
  | succ n ih =>
    refine (XR.onReader transferPieceT).bind fun r => (XR.onWriter _).bind fun _ => ?_
    exact XR.ite (fun _ => XR.pure _) fun _ => ih

theorem transferString_rel (hX : ¬ S.X .outOfFuel) : XR S transferString transferString := by
  refine (XR.onReader (Sim.startExpectedValueTypeT _ _)).bind fun _ => (XR.onWriter _).bind fun _ => ?_
  refine XR.get fun s1 s2 c hs => ?_
  dsimp only
  rw [fuel_eq hX hs]
  exact ((transferStringLoop_rel hX _).bind fun _ => (XR.onWriter _).bind fun _ => XR.onReader Sim.onValueEndT) s1 s2 c hs

theorem transferStart_rel (hX : ¬ S.X .outOfFuel) : XR S transferStart transferStart := by
  refine (XR.onReader Sim.peekT).bind fun t => ?_
  cases t with
  | array => exact (XR.onReader Sim.beginArrayT).bind fun _ => (XR.onWriter _).bind fun _ => XR.pure _
  | object => exact (XR.onReader Sim.beginObjectT).bind fun _ => (XR.onWriter _).bind fun _ => XR.pure _
  | string => exact (transferString_rel hX).bind fun _ => XR.pure _
  | number => exact (XR.onReader Sim.nextNumberAsStrT).bind fun _ => (XR.onWriter _).bind fun _ => XR.pure _
  | boolean => exact (XR.onReader Sim.nextBoolT).bind fun _ => (XR.onWriter _).bind fun _ => XR.pure _
  | null => exact (XR.onReader Sim.nextNullT).bind fun _ => (XR.onWriter _).bind fun _ => XR.pure _

theorem transferEnd_rel (hX : ¬ S.X .outOfFuel) : XR S transferEnd transferEnd := by
  refine XR.get fun s1 s2 c hs => ?_
  have e : isInArray s1 = isInArray s2 := by cases hs; rfl
  dsimp only
  rw [e]
  refine XR.ite (fun _ => ?_) (fun _ => ?_) s1 s2 c hs
  · exact (XR.onReader Sim.endArrayT).bind fun _ => XR.onWriter _
  · exact (XR.onReader Sim.endObjectT).bind fun _ => XR.onWriter _

theorem transferName_rel (hX : ¬ S.X .outOfFuel) : XR S transferName transferName := by
  refine XR.get fun s1 s2 c hs => ?_
  have e : s1.expectsMemberName = s2.expectsMemberName := by cases hs; rfl
  dsimp only
  rw [e]
  refine XR.ite (fun _ => ?_) (fun _ => XR.pure _) s1 s2 c hs
  exact (XR.onReader Sim.nextNameT).bind fun _ => XR.onWriter _

theorem transferLoop_rel (hX : ¬ S.X .outOfFuel) (n d : Nat) : XR S (transferLoop n d) (transferLoop n d) := by
  induction n generalizing d with
  | zero => exact XR.onReader fun _ _ _ => .inr ⟨rfl, .of_panic id id⟩
  | succ n ih =>
    refine (XR.onReader (Sim.atContainerEndT _)).bind fun b => ?_
    refine XR.bind (XR.ite (fun _ => ?_) fun _ => ?_) fun d' => XR.ite (fun _ => XR.pure _) fun _ => ih _
    · exact (transferEnd_rel hX).bind fun _ => XR.pure _
    · exact (transferName_rel hX).bind fun _ => (transferStart_rel hX).bind fun _ => XR.pure _

/-- `transfer_to` does the same for related readers -/
theorem transferTo_relX (hX : ¬ S.X .outOfFuel) : XR S transferTo transferTo := by
  refine XR.get fun s1 s2 c hs => ?_
  have e : s1.expectsMemberName = s2.expectsMemberName := by cases hs; rfl
  dsimp only
  rw [e, fuel_eq hX hs]
  exact XR.ite (fun _ => XR.onReader (Sim.usagePanic _ _)) (fun _ => transferLoop_rel hX _ _) s1 s2 c hs

theorem transferTo_rel (hX : ∀ e, ¬ S.X e) (s1 : RState σ1) (s2 : RState σ2) (c : Core) (h : S.RRel (.idle false) s1 s2) :
    Tree.Rel (Post S) (transferTo.run (s1, c)) (transferTo.run (s2, c)) :=
  (transferTo_relX (hX _) s1 s2 c h).rel fun _ ⟨e, _, h⟩ => hX e h

/-- the state after calls -/
theorem stateAfter_rel (hX : ∀ e, ¬ S.X e) (ops : List Op) {s1 : RState σ1} {s2 : RState σ2} (h : S.RRel (.idle false) s1 s2) :
    (stateAfter ops s1 = none ∧ stateAfter ops s2 = none) ∨ ∃ t1 t2, stateAfter ops s1 = some t1 ∧ stateAfter ops s2 = some t2 ∧ S.RRel (.idle false) t1 t2 := by
  induction ops generalizing s1 s2 with
  | nil => exact .inr ⟨_, _, rfl, rfl, h⟩
  | cons op ops ih =>
    have hr := Sim.runOpT op s1 s2 h
    unfold RelAt at hr
    unfold stateAfter
    cases h1 : (runOp op).run s1 with
    | ok a t1 =>
      cases h2 : (runOp op).run s2 with
      | ok b t2 =>
        rw [h1, h2] at hr
        dsimp only
        by_cases hc : op = .consumeTrailingWhitespace
        · rw [if_pos hc, if_pos hc]; exact .inl ⟨rfl, rfl⟩
        · rw [if_neg hc, if_neg hc]; exact ih hr.2
      | err e t2 => rw [h1, h2] at hr; exact hr.elim
    | err e t1 =>
      cases h2 : (runOp op).run s2 with
      | ok b t2 => rw [h1, h2] at hr; exact (hX _ hr).elim
      | err e' t2 =>
        rw [h1, h2] at hr
        rcases hr with hr | ⟨rfl, hr⟩
        · exact (hX _ hr).elim
        dsimp only
        cases hc : (e.fatal || decide (op = .consumeTrailingWhitespace)) with
        | true => exact .inl ⟨rfl, rfl⟩
        | false =>
          refine ih (hr.1 ?_)
          rw [Bool.or_eq_false_iff] at hc
          cases e <;> first | trivial | exact absurd hc.1 (by simp [RErr.fatal])

end Verif.Transfer
