import Verif.Model.Client
import Verif.Proofs.Run
/-! # Programs which use a reader: basic facts -/

namespace Verif.Prog
open Reader Json

section
variable {σ : Type} [ByteSource σ] {α β : Type}

theorem toR_ret (a : α) : (ret a).toR (σ := σ) = pure a := rfl
theorem toR_pure (a : α) : (pure a : Prog α).toR (σ := σ) = pure a := rfl
theorem toR_fail (e : RErr) : (fail e : Prog α).toR (σ := σ) = M.fail e := rfl

theorem toR_call (op : Op) (k : Except RErr Out → Prog α) (s : RState σ) : (call op k).toR.run s = match (runOp op).run s with
    | .ok o s' => (k (.ok o)).toR.run s'
    | .err e s' => if e.fatal then .err e s' else (k (.error e)).toR.run s' := by
  rw [toR]
  dsimp only
  cases (runOp op).run s <;> rfl

omit [ByteSource σ] in
theorem ext_run {m m' : R σ α} (h : ∀ s, m.run s = m'.run s) : m = m' := by
  obtain ⟨m⟩ := m
  obtain ⟨m'⟩ := m'
  exact congrArg _ (funext h)

theorem toR_bind (p : Prog α) (f : α → Prog β) : (p >>= f).toR (σ := σ) = p.toR >>= fun a => (f a).toR := by
  show (p.bind f).toR = _
  induction p with
  | ret a => rfl
  | fail e => rfl
  | call op k ih =>
    refine ext_run fun s => ?_
    rw [bind, toR_call, M.run_bind, toR_call]
    cases (runOp op).run s with
    | ok o s' => simp only [ih, M.run_bind]
    | err e s' =>
      simp only [ih, M.run_bind]
      cases e.fatal <;> rfl

theorem bind_assoc {γ : Type} (p : Prog α) (f : α → Prog β) (h : β → Prog γ) : (p >>= f) >>= h = p >>= fun a => f a >>= h := by
  show (p.bind f).bind h = p.bind fun a => (f a).bind h
  induction p with
  | ret a => rfl
  | fail e => rfl
  | call op k ih =>
    show call op _ = call op _
    congr 1
    exact funext ih

theorem toR_unit {op : Op} {m : R σ Unit} (h : runOp op = unitOut m) : (unitCall op).toR = m := by
  refine ext_run fun s => ?_
  unfold unitCall
  rw [toR_call]
  rw [h, unitOut, M.run_bind]
  cases m.run s with
  | ok => rfl
  | err e s => simp only; cases e.fatal <;> rfl

theorem toR_bool {op : Op} {m : R σ Bool} (h : runOp op = boolOut m) : (boolCall op).toR = m := by
  refine ext_run fun s => ?_
  unfold boolCall
  rw [toR_call]
  rw [h, boolOut, M.run_bind]
  cases m.run s with
  | ok => rfl
  | err e s => simp only; cases e.fatal <;> rfl

theorem toR_text {op : Op} {m : R σ Text} (h : runOp op = textOut m) : (textCall op).toR = m := by
  refine ext_run fun s => ?_
  unfold textCall
  rw [toR_call]
  rw [h, textOut, M.run_bind]
  cases m.run s with
  | ok => rfl
  | err e s => simp only; cases e.fatal <;> rfl

theorem toR_peek : (typeCall .peek).toR (σ := σ) = Reader.peek := by
  refine ext_run fun s => ?_
  unfold typeCall
  rw [toR_call]
  rw [show runOp .peek = (do let t ← Reader.peek; pure (.type t) : R σ Out) from rfl, M.run_bind]
  cases (Reader.peek (σ := σ)).run s with
  | ok => rfl
  | err e s => simp only; cases e.fatal <;> rfl

end

namespace Sim
open Verif.Sim
variable {σ1 σ2 : Type} [ByteSource σ1] [ByteSource σ2] {S : Verif.Sim σ1 σ2} {α : Type}

theorem toR_rel (hX : ∀ e, S.X e → e.fatal = true) (p : Prog α) : ∀ {s1 : RState σ1} {s2 : RState σ2}, S.RRel (.idle false) s1 s2 →
    RR S.X S.ERel (fun _ => S.RRel (.idle false)) (p.toR.run s1) (p.toR.run s2) := by
  induction p with
  | ret a => intro s1 s2 h; exact ⟨rfl, h⟩
  | fail e => intro s1 s2 h; exact .inr ⟨rfl, .of_rel h⟩
  | call op k ih =>
    intro s1 s2 h
    have hr := runOpT op s1 s2 h
    unfold RelAt at hr
    rw [toR_call, toR_call]
    cases h1 : (runOp op).run s1 with
    | ok a t1 =>
      cases h2 : (runOp op).run s2 with
      | ok b t2 =>
        rw [h1, h2] at hr
        obtain ⟨rfl, hr⟩ := hr
        exact ih _ hr
      | err e t2 => rw [h1, h2] at hr; exact hr.elim
    | err e1 t1 =>
      cases h2 : (runOp op).run s2 with
      | ok b t2 =>
        rw [h1, h2] at hr
        dsimp only
        rw [if_pos (hX _ hr)]
        cases (k (.ok b)).toR.run t2
        · exact hr
        · exact .inl hr
      | err e2 t2 =>
        rw [h1, h2] at hr
        dsimp only
        rcases hr with hr | ⟨rfl, hi⟩
        · rw [if_pos (hX _ hr)]
          split
          · exact .inl hr
          · cases (k (.error e2)).toR.run t2
            · exact hr
            · exact .inl hr
        · cases hf : e1.fatal with
          | true => exact .inr ⟨rfl, hi⟩
          | false => exact ih _ (hi.1 ((RErr.fatal_iff e1).1 hf))
end Sim

/-- execution with a reader on the list of bytes -/
def execAbs {α : Type} (st : Settings) (bytes : Bytes) (term : Option Nat) (p : Prog α) : Except RErr α :=
  match p.toR.run (new (σ := AbsSrc) ⟨bytes, term, []⟩ st) with
  | .ok a _ => .ok a
  | .err e _ => .error e

/-- The reader with internal buffer gives the same results as the reader on the list of bytes -/
theorem exec_eq {α : Type} {N : Nat} (hN : 0 < N) (st : Settings) (sched : List ReadEvent) (p : Prog α) :
    exec N st sched p = execAbs st (BufSrc.schedBytes sched) (BufSrc.schedError sched) p := by
  have h := Sim.toR_rel (S := BufSrc.sim hN st) (fun _ h => absurd h BufSrc.SX.no) p
    (s1 := new (BufSrc.new N sched) st) (s2 := new (σ := AbsSrc) ⟨BufSrc.schedBytes sched, BufSrc.schedError sched, []⟩ st)
    (Verif.Sim.RRel.mk (S := BufSrc.sim hN st) (BufSrc.BRel.new sched) ..)
  unfold exec execAbs
  revert h
  generalize p.toR.run (new (BufSrc.new N sched) st) = r1
  generalize p.toR.run (new (σ := AbsSrc) _ st) = r2
  intro h
  cases r1 <;> cases r2
  · rw [h.1]
  · exact h.elim
  · exact absurd h BufSrc.SX.no
  · rcases h with h | ⟨rfl, _⟩
    · exact absurd h BufSrc.SX.no
    · rfl

end Verif.Prog
