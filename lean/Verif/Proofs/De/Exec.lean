import Verif.Proofs.CallsRel
import Verif.Proofs.De.Client
/-! # Programs which use the deserializer -/

namespace Verif.De
open Reader Json Cursor DeSpec
open Abs (St RepC)

variable {st : Settings} {T : Tops}

theorem reach_step {ops : List Op} {op : Op} {k k' : Cur} (h : reach st (op :: ops) k = some k') : op ≠ .consumeTrailingWhitespace ∧
    ((∃ v c, Cursor.step st k op = .ok v c ∧ reach st ops c = some k' ∧ Cursor.run st (op :: ops) k = .ok v :: Cursor.run st ops c) ∨
      (∃ e c, Cursor.step st k op = .err e c ∧ reach st ops c = some k' ∧ Cursor.run st (op :: ops) k = .error e :: Cursor.run st ops c)) := by
  unfold reach at h
  have hrn : Cursor.run st (op :: ops) k = match Cursor.step st k op with
    | .ok v c' => .ok v :: if op = .consumeTrailingWhitespace then [] else Cursor.run st ops c'
    | .err k c' => .error k :: Cursor.run st ops c'
    | .stop k => [.error k]
    | .misuse => [] := rfl
  rw [hrn]
  cases hs : Cursor.step st k op with
  | ok v c =>
    rw [hs] at h
    dsimp only at h ⊢
    split at h
    · cases h
    · rename_i hct
      exact ⟨hct, .inl ⟨v, c, rfl, h, by rw [if_neg hct]⟩⟩
  | err e c =>
    rw [hs] at h
    refine ⟨?_, .inr ⟨e, c, rfl, h, rfl⟩⟩
    rintro rfl
    unfold Cursor.step at hs
    dsimp only at hs
    split at hs <;> cases hs
  | stop e => rw [hs] at h; cases h
  | misuse => rw [hs] at h; cases h

/-- a specified call -/
theorem handle_reach {ops : List Op} {op : Op} {k k' : Cur} {s : St} (hk : RepC st T k s) (h : reach st (op :: ops) k = some k') :
    ∃ r c s', handle op (some s) = .ret r (some s') ∧ RepC st T c s' ∧ reach st ops c = some k' ∧ Cursor.run st (op :: ops) k = view r :: Cursor.run st ops c := by
  obtain ⟨hct, h⟩ := reach_step h
  have h1 := Abs.step_sim hk op hct
  rcases h with ⟨v, c, h2, h3, h4⟩ | ⟨e, c, h2, h3, h4⟩
  · rw [h2] at h1
    obtain ⟨o, s', h5, h6, h7⟩ := h1
    refine ⟨.ok o, c, s', ?_, h7, h3, ?_⟩
    · unfold handle
      dsimp only
      rw [h5]
      dsimp only
      rw [if_neg hct]
    · rw [h4, ← h6]; rfl
  · rw [h2] at h1
    obtain ⟨x, s', h5, h6, h7, h8⟩ := h1
    refine ⟨.error x, c, s', ?_, h8, h3, ?_⟩
    · unfold handle
      dsimp only
      rw [h5]
      cases x with
      | panic p => cases h7
      | _ => dsimp only; rw [h7, if_neg (by simpa using hct)]
    · rw [h4, ← h6]; rfl

theorem calls_run (pre : List Op) : ∀ {k k' : Cur} {s : St}, RepC st T k s → reach st pre k = some k' →
    ∃ s', RepC st T k' s' ∧ ∀ (α : Type) (t : Calls Op OpRes α), (calls pre t).run handle (some s) = t.run handle (some s') := by
  induction pre with
  | nil => intro k k' s h hr; cases hr; exact ⟨s, h, fun _ _ => rfl⟩
  | cons op pre ih =>
    intro k k' s h hr
    obtain ⟨r, c, s1, h1, h2, h3, _⟩ := handle_reach h hr
    obtain ⟨s', h4, h5⟩ := ih h2 h3
    refine ⟨s', h4, fun α t => ?_⟩
    rw [calls, Calls.run, h1]
    exact h5 α t

/-! ## Calls behind the deserializer -/

theorem finish_other (k : Cur) : Cursor.finish st k ≠ .stop .other := by
  unfold Cursor.finish
  repeat' split
  all_goals nofun

theorem finishAll_other : (n : Nat) → (k : Cur) → Cursor.finishAll st n k ≠ .stop .other
  | 0, _ => by unfold Cursor.finishAll; nofun
  | n + 1, k => by
    unfold Cursor.finishAll
    split
    · exact finishAll_other n _
    · exact finish_other k

theorem back_other : (ps : List PathPiece) → (k : Cur) → Cursor.back st ps k ≠ .stop .other
  | [], _ => by unfold Cursor.back; nofun
  | p :: ps, k => by
    unfold Cursor.back
    have h : (match Cursor.finish st k with | .ok _ c' => Cursor.back st ps c' | s => s) ≠ .stop .other := by
      split
      · exact back_other ps _
      · exact finish_other k
    repeat' split
    all_goals first | exact back_other ps _ | exact finish_other k | nofun

theorem withValue_other {k : Cur} {f : JVal → Step} (hf : ∀ v, f v ≠ .stop .other) : Cursor.withValue st k f ≠ .stop .other := by
  unfold Cursor.withValue
  repeat' split
  all_goals first | exact hf _ | nofun

theorem seek_other : (ps : List PathPiece) → (k : Cur) → Cursor.seek st ps k ≠ .stop .other
  | [], _ => by unfold Cursor.seek; nofun
  | .arrayItem i :: ps, k => by
    unfold Cursor.seek
    refine withValue_other fun v => ?_
    repeat' split
    all_goals first | exact seek_other ps _ | nofun
  | .objectMember i :: ps, k => by
    unfold Cursor.seek
    refine withValue_other fun v => ?_
    repeat' split
    all_goals first | exact seek_other ps _ | nofun

theorem step_other (k : Cur) (op : Op) : Cursor.step st k op ≠ .stop .other := by
  cases op <;> unfold Cursor.step <;> dsimp only
  case seekTo p => exact withValue_other fun _ => seek_other p k
  case seekBack p => split; nofun; exact back_other _ k
  case skipToTopLevel =>
    repeat' split
    all_goals first | exact finishAll_other _ _ | nofun
  all_goals first
    | (refine withValue_other fun v => ?_; (try unfold Cursor.beginStep); (try unfold Cursor.wrongType); (repeat' split) <;> first | nofun | (unfold Cursor.beginStep; (repeat' split) <;> nofun))
    | ((repeat' split) <;> nofun)
    | nofun

/-- Calls of which all are specified; the last one may make the reader unusable -/
theorem results_run (post : List Op) : ∀ {k : Cur} {s : St}, RepC st T k s → (Cursor.run st post k).length = post.length →
    ∃ rs, rs.map view = Cursor.run st post k ∧ ∀ (α : Type) (f : List (Except RErr Out) → α), ((results post f).run handle (some s)).forget = .ret (f rs) () := by
  induction post with
  | nil => intro k s h _; exact ⟨[], rfl, fun _ _ => rfl⟩
  | cons op post ih =>
    intro k s h hr
    have hrn : Cursor.run st (op :: post) k = match Cursor.step st k op with
      | .ok v c' => .ok v :: if op = .consumeTrailingWhitespace then [] else Cursor.run st post c'
      | .err k c' => .error k :: Cursor.run st post c'
      | .stop k => [.error k]
      | .misuse => [] := rfl
    by_cases hct : op = .consumeTrailingWhitespace
    · subst hct
      obtain ⟨v, c, h1⟩ : ∃ v c, Cursor.step st k .consumeTrailingWhitespace = .ok v c := by
        cases hs : Cursor.step st k .consumeTrailingWhitespace with
        | ok v c => exact ⟨v, c, rfl⟩
        | misuse => rw [hrn, hs] at hr; cases hr
        | _ => unfold Cursor.step at hs; dsimp only at hs; split at hs <;> cases hs
      rw [hrn, h1] at hr ⊢
      dsimp only at hr ⊢
      rw [if_pos rfl] at hr ⊢
      have hp : post = [] := by
        cases post with
        | nil => rfl
        | cons => simp at hr
      subst hp
      rcases h with ⟨c', td, rfl, h⟩ | ⟨hk, _⟩
      · have h2 := Abs.consumeTrailing_sim h
        rw [h1] at h2
        obtain ⟨rfl, s', h3⟩ := h2
        refine ⟨[.ok .unit], rfl, fun α f => ?_⟩
        rw [results, Calls.run]
        have h4 : (runOp .consumeTrailingWhitespace).run s = .ok .unit s' := M.bind_ok h3
        unfold handle
        dsimp only
        rw [h4]
        rfl
      · rw [Abs.str_step hk (by nofun)] at h1; cases h1
    · have h1 := Abs.step_sim h op hct
      cases hs : Cursor.step st k op with
      | ok v c =>
        rw [hs] at h1 hrn
        dsimp only at hrn
        rw [if_neg hct] at hrn
        rw [hrn] at hr ⊢
        obtain ⟨o, s', h2, h3, h4⟩ := h1
        obtain ⟨rs, h5, h6⟩ := ih h4 (by simpa using hr)
        refine ⟨.ok o :: rs, by rw [List.map_cons, h5, ← h3]; rfl, fun α f => ?_⟩
        rw [results, Calls.run]
        unfold handle
        dsimp only
        rw [h2]
        dsimp only
        rw [if_neg hct]
        exact h6 α _
      | err e c =>
        rw [hs] at h1 hrn
        rw [hrn] at hr ⊢
        obtain ⟨x, s', h2, h3, h4, h7⟩ := h1
        obtain ⟨rs, h5, h6⟩ := ih h7 (by simpa using hr)
        refine ⟨.error x :: rs, by rw [List.map_cons, h5, ← h3]; rfl, fun α f => ?_⟩
        rw [results, Calls.run]
        unfold handle
        dsimp only
        rw [h2]
        cases x with
        | panic p => cases h4
        | _ => dsimp only; rw [h4, if_neg (by simpa using hct)]; exact h6 α _
      | stop e =>
        rw [hs] at h1 hrn
        rw [hrn] at hr ⊢
        obtain ⟨x, s', h2, h3⟩ := h1
        have hp : post = [] := by
          cases post with
          | nil => rfl
          | cons => simp at hr
        subst hp
        refine ⟨[.error x], by rw [← h3]; rfl, fun α f => ?_⟩
        rw [results, Calls.run]
        unfold handle
        dsimp only
        rw [h2]
        cases x with
        | panic p => exact absurd (hs.trans (congrArg _ h3.symm)) (step_other k op)
        | _ => rfl
      | misuse => rw [hrn, hs] at hr; cases hr

end Verif.De
