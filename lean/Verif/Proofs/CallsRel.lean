import Verif.Proofs.Calls
import Verif.Props.Chunking
/-! # Code which is generic in the reader gives the same result with a reader on the list of bytes -/

namespace Verif.Reader
open Verif.Sim Props

section
variable {σ1 σ2 : Type} [ByteSource σ1] [ByteSource σ2] {S : Verif.Sim σ1 σ2} {α : Type}

def StRel (S : Verif.Sim σ1 σ2) : Option (RState σ1) → Option (RState σ2) → Prop
  | some s1, some s2 => S.RRel (.idle false) s1 s2
  | none, none => True
  | _, _ => False

def OutRel (S : Verif.Sim σ1 σ2) : Outcome (Option (RState σ1)) α → Outcome (Option (RState σ2)) α → Prop
  | .ret a s1, .ret b s2 => a = b ∧ StRel S s1 s2
  | .panic p, .panic q => p = q
  | .unspecified, .unspecified => True
  | _, _ => False

theorem OutRel.cases {o1 : Outcome (Option (RState σ1)) α} {o2 : Outcome (Option (RState σ2)) α} (h : OutRel S o1 o2) :
    (∃ a s1 s2, o1 = .ret a s1 ∧ o2 = .ret a s2 ∧ StRel S s1 s2) ∨ (∃ p, o1 = .panic p ∧ o2 = .panic p) ∨ (o1 = .unspecified ∧ o2 = .unspecified) := by
  cases o1 with
  | ret a s1 =>
    cases o2 with
    | ret c s2 => obtain ⟨rfl, h⟩ := h; exact .inl ⟨a, s1, s2, rfl, rfl, h⟩
    | panic p => exact h.elim
    | unspecified => exact h.elim
  | panic p =>
    cases o2 with
    | ret c s2 => exact h.elim
    | panic q => cases (show p = q from h); exact .inr (.inl ⟨p, rfl, rfl⟩)
    | unspecified => exact h.elim
  | unspecified =>
    cases o2 with
    | ret c s2 => exact h.elim
    | panic p => exact h.elim
    | unspecified => exact .inr (.inr ⟨rfl, rfl⟩)

theorem handle_rel (hX : ∀ e, ¬ S.X e) (op : Op) {s1 : Option (RState σ1)} {s2 : Option (RState σ2)} (h : StRel S s1 s2) : OutRel S (handle op s1) (handle op s2) := by
  match s1, s2, h with
  | none, none, _ => trivial
  | some s1, some s2, h =>
    have hr := runOpT op s1 s2 h
    unfold RelAt at hr
    unfold handle
    dsimp only
    cases h1 : (runOp op).run s1 with
    | ok a t1 =>
      cases h2 : (runOp op).run s2 with
      | ok c t2 =>
        rw [h1, h2] at hr
        obtain ⟨rfl, hr⟩ := hr
        refine ⟨rfl, ?_⟩
        split
        · trivial
        · exact hr
      | err e t2 => rw [h1, h2] at hr; exact hr.elim
    | err e1 t1 =>
      cases h2 : (runOp op).run s2 with
      | ok c t2 => rw [h1, h2] at hr; exact absurd hr (hX _)
      | err e2 t2 =>
        rw [h1, h2] at hr
        rcases hr with hr | ⟨rfl, hi⟩
        · exact absurd hr (hX _)
        have key : ∀ e, e = e1 → StRel S (if e.fatal || op = .consumeTrailingWhitespace then none else some t1) (if e.fatal || op = .consumeTrailingWhitespace then none else some t2) := by
          rintro e rfl
          split
          · trivial
          · rename_i hf
            exact hi.1 ((RErr.fatal_iff e).1 (by revert hf; cases e.fatal <;> simp))
        cases e1 with
        | panic p => exact rfl
        | _ => exact ⟨rfl, key _ rfl⟩

theorem run_rel (hX : ∀ e, ¬ S.X e) (t : Calls Op OpRes α) : ∀ {s1 : Option (RState σ1)} {s2 : Option (RState σ2)}, StRel S s1 s2 → OutRel S (t.run handle s1) (t.run handle s2) := by
  induction t with
  | ret a => intro s1 s2 h; exact ⟨rfl, h⟩
  | panic p => intro s1 s2 h; exact rfl
  | call op k ih =>
    intro s1 s2 h
    have h1 := handle_rel hX op h
    rw [Calls.run, Calls.run]
    rcases h1.cases with ⟨a, t1, t2, e1, e2, h2⟩ | ⟨p, e1, e2⟩ | ⟨e1, e2⟩
    · rw [e1, e2]; exact ih a h2
    · rw [e1, e2]; exact rfl
    · rw [e1, e2]; trivial
end

theorem run_abs {α : Type} {N : Nat} (hN : 0 < N) {sched : List ReadEvent} {bytes : Bytes} {e : Option Nat} (hd : Delivers sched bytes e) (st : Settings) (t : Calls Op OpRes α) :
    (t.run handle (some (new (BufSrc.new N sched) st))).forget = (t.run handle (some (new (σ := AbsSrc) ⟨bytes, e, []⟩ st))).forget := by
  have h := run_rel (S := BufSrc.sim hN st) (fun _ => BufSrc.SX.no) t
    (s1 := some (new (BufSrc.new N sched) st)) (s2 := some (new (σ := AbsSrc) ⟨BufSrc.schedBytes sched, BufSrc.schedError sched, []⟩ st))
    (Verif.Sim.RRel.mk (S := BufSrc.sim hN st) (BufSrc.BRel.new sched) ..)
  rw [(delivers_sched hd).1, (delivers_sched hd).2] at h
  rcases h.cases with ⟨a, t1, t2, e1, e2, _⟩ | ⟨p, e1, e2⟩ | ⟨e1, e2⟩ <;> rw [e1, e2] <;> rfl

end Verif.Reader
