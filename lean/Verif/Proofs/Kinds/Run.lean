import Verif.Proofs.Kinds.Compound
import Verif.Proofs.Run
/-! # Which errors occur in a sequence of method calls -/

namespace Verif.Kinds
open Reader ErrorKinds Abs.After

variable {st : Settings} {d : Does} {α β : Type} {s : St}

theorem cp_pure {m : R AbsSrc α} {f : α → β} {Q : α → St → Prop} (h : Cp st d m s Q) (hq : ∀ a s', Q a s' → s'.settings = st) :
    Cp st d (do let a ← m; pure (f a)) s (fun _ s' => s'.settings = st) := Wp.bind' h fun a s' h => hq a s' h

theorem bl_pure {m : R AbsSrc α} {f : α → β} (hs : s.settings = st) (h : Bl st d Kt m) : Cp st d (do let a ← m; pure (f a)) s (fun _ s' => s'.settings = st) :=
  Wp.bind' (h s hs) fun _ _ h => Eq.trans h hs

/-- with an error which does not occur, see `Props.C16_skipping_back` -/
def doesU : Op → Does
  | .skipToTopLevel => { does .skipToTopLevel with structures := fewer }
  | .seekBack path => { does (.seekBack path) with structures := fewer }
  | op => does op

theorem op_cp (op : Op) (hw : Ws st s) : Cp st (doesU op) (runOp op) s (fun _ s' => s'.settings = st) := by
  cases op with
  | peek => exact bl_pure hw.st (Bl.toT (peek_bl rfl rfl rfl))
  | beginArray => exact bl_pure hw.st (beginArray_bl rfl rfl rfl rfl rfl)
  | endArray => exact bl_pure hw.st (endArray_bl rfl rfl rfl)
  | beginObject => exact bl_pure hw.st (beginObject_bl rfl rfl rfl rfl rfl)
  | endObject => exact bl_pure hw.st (endObject_bl rfl rfl rfl)
  | nextName => exact bl_pure hw.st (Bl.toT (nextName_bl rfl rfl rfl rfl))
  | nextNameOwned => exact bl_pure hw.st (Bl.toT (nextNameOwned_bl rfl rfl rfl rfl))
  | nextString => exact bl_pure hw.st (Bl.toT (nextString_bl rfl rfl rfl rfl rfl))
  | nextStr => exact bl_pure hw.st (Bl.toT (nextStr_bl rfl rfl rfl rfl rfl))
  | stringReader lens => exact (Bl.toT (stringReader_bl rfl rfl rfl rfl rfl) s hw.st).post fun _ _ h => Eq.trans h hw.st
  | nextNumberAsStr =>
    exact bl_pure hw.st (Bl.toT (Bl.bind (readNumberBytes_bl rfl rfl rfl rfl rfl rfl) fun _ => Bl.lift rfl _))
  | nextNumberAsString =>
    exact bl_pure hw.st (Bl.toT (Bl.bind (readNumberBytes_bl rfl rfl rfl rfl rfl rfl) fun _ => Bl.lift rfl _))
  | nextBool => exact bl_pure hw.st (Bl.toT (nextBool_bl rfl rfl rfl rfl))
  | nextNull => exact bl_pure hw.st (Bl.toT (nextNull_bl rfl rfl rfl rfl))
  | hasNext => exact bl_pure hw.st (Bl.toT (hasNext_bl rfl rfl))
  | skipName => exact bl_pure hw.st (Bl.toT (skipName_bl rfl rfl rfl rfl))
  | skipValue => exact cp_pure (skipValue_cp rfl rfl rfl rfl rfl rfl hw) fun _ _ h => h.st
  | skipToTopLevel => exact cp_pure (skipToTopLevel_cp rfl rfl rfl rfl rfl rfl hw) fun _ _ h => h.st
  | seekTo path =>
    refine cp_pure (seekTo_cp rfl rfl rfl rfl rfl rfl (fun p hp => ?_) hw) fun _ _ h => h.st
    cases p with
    | arrayItem i =>
      refine ⟨?_, List.any_eq_true.2 ⟨_, hp, rfl⟩⟩
      show (fewer (.tooShortArray i) || missing path (.tooShortArray i)) = true
      exact Bool.or_eq_true_iff.2 (.inr (List.contains_iff_mem.2 hp))
    | objectMember n =>
      refine ⟨?_, List.any_eq_true.2 ⟨_, hp, rfl⟩⟩
      show (fewer (.missingObjectMember n) || missing path (.missingObjectMember n)) = true
      exact Bool.or_eq_true_iff.2 (.inr (List.contains_iff_mem.2 hp))
  | seekBack path => exact cp_pure (seekBackLoop_cp rfl rfl rfl rfl rfl rfl hw) fun _ _ h => h.st
  | currentPosition b => exact Wp.get hw.st
  | consumeTrailingWhitespace => exact bl_pure hw.st (Bl.toT (trailing_bl rfl rfl))

theorem G.w {e : RErr} (h : G e s) (hf : e.fatal = false) : W s := by
  cases e <;> first | exact h | cases hf

theorem runOps_allowed : ∀ (ops : List Op) {s : St} {i : Nat} {e : RErr}, Ws st s → (runOps ops s)[i]? = some (.error e) → ∃ op, ops[i]? = some op ∧ Allowed st (doesU op) e
  | [], _, _, _, _, h => by cases h
  | op :: ops, s, i, e, hw, h => by
    have hc := op_cp op hw
    have hu := fun h => op_up (op := op) hw.w h
    unfold runOps at h
    split at h
    · rename_i o s1 hm
      cases i with
      | zero => cases h
      | succ i =>
        rw [List.getElem?_cons_succ] at h
        split at h
        · cases h
        · rename_i ho
          exact runOps_allowed ops ⟨(hu ho).ok hm, hc.ok hm⟩ h
    · rename_i e1 s1 hm
      cases i with
      | zero =>
        cases h
        exact ⟨op, rfl, (hc.err hm).1⟩
      | succ i =>
        rw [List.getElem?_cons_succ] at h
        split at h
        · cases h
        · rename_i ho
          rw [Bool.or_eq_true, not_or] at ho
          have hf : e1.fatal = false := by simpa using ho.1
          have ho : op ≠ .consumeTrailingWhitespace := by simpa using ho.2
          exact runOps_allowed ops ⟨G.w ((hu ho).err hm) hf, (hc.err hm).2⟩ h

theorem ws_new {bytes : Bytes} {t : Option Nat} : Ws st (new (σ := AbsSrc) ⟨bytes, t, []⟩ st) := by
  refine ⟨WF.w ⟨fun p hp => ?_, fun h => ?_⟩ rfl, rfl⟩
  · unfold new at *
    dsimp only at *
    split at hp
    · cases hp; trivial
    · cases hp
  · unfold new at h; cases h

theorem runAbs_allowed {bytes : Bytes} {t : Option Nat} {ops : List Op} {i : Nat} {e : RErr} (h : (runAbs st bytes t ops)[i]? = some (.error e)) :
    ∃ op, ops[i]? = some op ∧ Allowed st (doesU op) e := runOps_allowed ops ws_new h

end Verif.Kinds
