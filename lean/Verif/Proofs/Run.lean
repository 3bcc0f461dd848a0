import Verif.Model.Run
import Verif.Proofs.RelReader
import Verif.Proofs.Bisim
/-! # Sequences of method calls of related readers -/

namespace Verif
open Reader

theorem RErr.fatal_iff (e : RErr) : e.fatal = false ↔ e.nonfatal := by
  cases e <;> simp [RErr.fatal, RErr.nonfatal]

namespace Sim
variable {σ1 σ2 : Type} [ByteSource σ1] [ByteSource σ2] {S : Sim σ1 σ2}

/-- two result sequences: the same, or the same up to an exempt error in the first sequence -/
inductive Same (X : RErr → Prop) : List (Except RErr Out) → List (Except RErr Out) → Prop
  | nil : Same X [] []
  | cons (r : Except RErr Out) {l1 l2} : Same X l1 l2 → Same X (r :: l1) (r :: l2)
  | exempt (e : RErr) (h : X e) (l1 l2) (hf : e.fatal = true → l1 = []) : Same X (.error e :: l1) l2

theorem runOps_same (ops : List Op) : ∀ {s1 : RState σ1} {s2 : RState σ2}, S.RRel (.idle false) s1 s2 →
    Same S.X (runOps ops s1) (runOps ops s2) := by
  induction ops with
  | nil => intro s1 s2 _; exact .nil
  | cons op ops ih =>
    intro s1 s2 h
    have hr := runOpT op s1 s2 h
    unfold RelAt at hr
    unfold runOps
    cases h1 : (runOp op).run s1 with
    | ok a t1 =>
      cases h2 : (runOp op).run s2 with
      | ok b t2 =>
        rw [h1, h2] at hr
        obtain ⟨rfl, hr⟩ := hr
        refine .cons _ ?_
        split
        · exact .nil
        · exact ih hr
      | err e t2 => rw [h1, h2] at hr; exact hr.elim
    | err e1 t1 =>
      cases h2 : (runOp op).run s2 with
      | ok b t2 => rw [h1, h2] at hr; exact .exempt _ hr _ _ fun hf => by rw [if_pos (by rw [hf]; rfl)]
      | err e2 t2 =>
        rw [h1, h2] at hr
        rcases hr with hx | ⟨rfl, hi⟩
        · exact .exempt _ hx _ _ fun hf => by rw [if_pos (by rw [hf]; rfl)]
        · dsimp only
          refine .cons _ ?_
          split
          · exact .nil
          · rename_i hf
            have hf : e1.fatal = false := by
              revert hf
              cases e1.fatal <;> simp
            exact ih (hi.1 ((RErr.fatal_iff e1).1 hf))

theorem Same.eq {X : RErr → Prop} (hX : ∀ e, ¬ X e) {l1 l2} (h : Same X l1 l2) : l1 = l2 := by
  induction h with
  | nil => rfl
  | cons r _ ih => rw [ih]
  | exempt e h => exact absurd h (hX e)

end Sim

theorem BufSrc.BRel.new {N : Nat} {dbg stale : Bool} (sched : List ReadEvent) :
    BufSrc.BRel stale (.idle false) (BufSrc.newD N dbg sched) ⟨BufSrc.schedBytes sched, BufSrc.schedError sched, []⟩ :=
  .idle ⟨by simp [BufSrc.newD], Nat.le_refl _, Nat.zero_le _, fun _ => rfl, by simp [BufSrc.newD], by simp [BufSrc.newD]⟩ (by rintro ⟨⟩) (by rintro ⟨⟩)

/-- The reader with internal buffer gives the same results as the reader on the list of bytes -/
theorem Reader.runReader_eq_runAbs {N : Nat} (hN : 0 < N) (settings : Settings) (sched : List ReadEvent) (ops : List Op) :
    runReader N settings sched ops = runAbs settings (BufSrc.schedBytes sched) (BufSrc.schedError sched) ops := by
  refine (Sim.runOps_same (S := BufSrc.sim hN settings) ops ?_).eq (fun e => BufSrc.SX.no)
  exact Sim.RRel.mk (S := BufSrc.sim hN settings) (BufSrc.BRel.new sched) ..

end Verif
