import Verif.Proofs.Writer.Tree
import Verif.Model.Writer
/-!
# Reasoning about modelled methods of the writer

`Emits`, `Errs`, `Panics`: outcome and emitted bytes if no call of the underlying `Write` fails. `Calm`: nothing is emitted after a failed call.
-/

namespace Verif.Writer

variable {ε σ α β : Type} {m : T ε σ α} {f : α → T ε σ β} {s s' s'' : σ} {a : α} {b : β} {bs bs' : Bytes} {e : ε} {p : WPanic}

/-- success with result `a` and state `s'`; emits `bs` -/
def Emits (m : T ε σ α) (s : σ) (bs : Bytes) (a : α) (s' : σ) : Prop := (m.run s).ideal = (.ok (.ok a, s'), bs)
/-- error; emits `bs` before -/
def Errs (m : T ε σ α) (s : σ) (bs : Bytes) (e : ε) (s' : σ) : Prop := (m.run s).ideal = (.ok (.error e, s'), bs)
/-- panics; emits `bs` before -/
def Panics (m : T ε σ α) (s : σ) (bs : Bytes) (p : WPanic) : Prop := (m.run s).ideal = (.error p, bs)

theorem T.run_bind (m : T ε σ α) (f : α → T ε σ β) (s : σ) : (m >>= f).run s = (m.run s).bind fun r => match r with
    | (.ok a, s') => (f a).run s'
    | (.error e, s') => .ret (.error e, s') := rfl

theorem Emits.bind (h : Emits m s bs a s') (hf : Emits (f a) s' bs' b s'') : Emits (m >>= f) s (bs ++ bs') b s'' := by
  unfold Emits at *
  rw [T.run_bind, ideal_bind, h]
  dsimp only
  rw [hf]

theorem Emits.bind_err (h : Emits m s bs a s') (hf : Errs (f a) s' bs' e s'') : Errs (m >>= f) s (bs ++ bs') e s'' := by
  unfold Emits Errs at *
  rw [T.run_bind, ideal_bind, h]
  dsimp only
  rw [hf]

theorem Emits.bind_panic (h : Emits m s bs a s') (hf : Panics (f a) s' bs' p) : Panics (m >>= f) s (bs ++ bs') p := by
  unfold Emits Panics at *
  rw [T.run_bind, ideal_bind, h]
  dsimp only
  rw [hf]

theorem Errs.bind (h : Errs m s bs e s') : Errs (m >>= f) s bs e s' := by
  unfold Errs at *
  rw [T.run_bind, ideal_bind, h]
  dsimp only
  rw [Tree.ideal, List.append_nil]

theorem Panics.bind (h : Panics m s bs p) : Panics (m >>= f) s bs p := by
  unfold Panics at *
  rw [T.run_bind, ideal_bind, h]

/-- first part emits nothing -/
theorem Emits.seq (h : Emits m s [] a s') (hf : Emits (f a) s' bs b s'') : Emits (m >>= f) s bs b s'' := h.bind hf
theorem Emits.seq_err (h : Emits m s [] a s') (hf : Errs (f a) s' bs e s'') : Errs (m >>= f) s bs e s'' := h.bind_err hf
theorem Emits.seq_panic (h : Emits m s [] a s') (hf : Panics (f a) s' bs p) : Panics (m >>= f) s bs p := h.bind_panic hf

theorem Emits.cast (h : Emits m s bs a s') (hb : bs = bs') : Emits m s bs' a s' := hb ▸ h

/-- second part emits nothing -/
theorem Emits.last (h : Emits m s bs a s') (hf : Emits (f a) s' [] b s'') : Emits (m >>= f) s bs b s'' :=
  (h.bind hf).cast (List.append_nil _)

theorem emits_pure : Emits (pure a : T ε σ α) s [] a s := rfl
theorem emits_get : Emits (T.get : T ε σ σ) s [] s s := rfl
theorem emits_modify {g : σ → σ} : Emits (T.modify g : T ε σ Unit) s [] () (g s) := rfl
theorem errs_fail : Errs (T.fail e : T ε σ α) s [] e s := rfl
theorem panics_panic : Panics (T.panic p : T ε σ α) s [] p := rfl
theorem panics_usage {u : WUsage} : Panics (T.usage u : T ε σ α) s [] (.usage u) := rfl
theorem emits_writeBytes : Emits (T.writeBytes bs : T WErr σ Unit) s bs () s := by
  show (_, bs ++ []) = _
  rw [List.append_nil]
  rfl
theorem emits_flush : Emits (T.flush : T WErr σ Unit) s [] () s := rfl

theorem Emits.attempt (h : Emits m s bs a s') : Emits (T.attempt m) s bs (.ok a) s' := by
  unfold Emits at *
  show ((m.run s).bind _).ideal = _
  rw [ideal_bind, h]
  dsimp only
  rw [Tree.ideal, List.append_nil]

theorem Errs.attempt (h : Errs m s bs e s') : Emits (T.attempt m) s bs (.error e) s' := by
  unfold Emits Errs at *
  show ((m.run s).bind _).ideal = _
  rw [ideal_bind, h]
  dsimp only
  rw [Tree.ideal, List.append_nil]

theorem Panics.attempt (h : Panics m s bs p) : Panics (T.attempt m) s bs p := by
  unfold Panics at *
  show ((m.run s).bind _).ideal = _
  rw [ideal_bind, h]

/-- every computation has one of the three outcomes -/
theorem outcome (m : T ε σ α) (s : σ) : (∃ bs a s', Emits m s bs a s') ∨ (∃ bs e s', Errs m s bs e s') ∨ ∃ bs p, Panics m s bs p := by
  unfold Emits Errs Panics
  rcases (m.run s).ideal with ⟨_ | ⟨_ | a, s'⟩, bs⟩
  · exact .inr (.inr ⟨_, _, rfl⟩)
  · exact .inr (.inl ⟨_, _, _, rfl⟩)
  · exact .inl ⟨_, _, _, rfl⟩

theorem Emits.unique {a' : α} (h : Emits m s bs a s') (h' : Emits m s bs' a' s'') : bs = bs' ∧ a = a' ∧ s' = s'' := by
  unfold Emits at *
  rw [h] at h'
  injection h' with h1 h2
  injection h1 with h1
  injection h1 with h1 h3
  injection h1 with h1
  exact ⟨h2, h1, h3⟩

/-! ## Nothing is emitted after a failed call -/

/-- After a failed call of `write_bytes` or `flush` there are no further calls, and an error is returned. In any case `is_string_value_writer_active` is not changed. -/
def Calm (m : W α) : Prop := ∀ s, (m.run s).Quiet (fun r => r.2.stringWriterActive = s.stringWriterActive)
  fun r => (∃ e, r.1 = .error e ∧ e.isIo = true) ∧ r.2.stringWriterActive = s.stringWriterActive

theorem Calm.bind {m : W α} {f : α → W β} (h : Calm m) (hf : ∀ a, Calm (f a)) : Calm (m >>= f) := by
  intro s
  rw [T.run_bind]
  refine (h s).bind ?_ ?_
  · rintro ⟨_ | a, s'⟩ hs
    · exact hs
    · refine (hf a s').mono ?_ ?_
      · intro r hr; rw [hr]; exact hs
      · intro r hr; rw [hr.2]; exact ⟨hr.1, hs⟩
  · rintro ⟨_ | a, s'⟩ ⟨⟨e, he, hio⟩, hs⟩
    · cases he; exact ⟨⟨_, rfl, hio⟩, hs⟩
    · cases he

theorem calm_pure {a : α} : Calm (pure a : W α) := fun _ => rfl
theorem calm_get : Calm (T.get : W Core) := fun _ => rfl
theorem calm_modify {g : Core → Core} (h : ∀ s, (g s).stringWriterActive = s.stringWriterActive) : Calm (T.modify g : W Unit) := fun s => h s
theorem calm_fail {e : WErr} : Calm (T.fail e : W α) := fun _ => rfl
theorem calm_panic : Calm (T.panic p : W α) := fun _ => trivial
theorem calm_usage {u : WUsage} : Calm (T.usage u : W α) := fun _ => trivial
theorem calm_internal {u : WInternal} : Calm (T.internal u : W α) := fun _ => trivial
theorem calm_writeBytes : Calm (T.writeBytes bs : W Unit) := fun _ => ⟨rfl, fun e he => ⟨⟨e, rfl, he⟩, rfl⟩⟩
theorem calm_flush : Calm (T.flush : W Unit) := fun _ => ⟨rfl, fun e he => ⟨⟨e, rfl, he⟩, rfl⟩⟩
theorem calm_ite {c : Prop} [Decidable c] {m m' : W α} (h : Calm m) (h' : Calm m') : Calm (if c then m else m') := by
  split <;> assumption

/-- proves `Calm` for straight line code, with lemmas for the called methods -/
syntax "calm" ("[" term,* "]")? : tactic
macro_rules
  | `(tactic| calm) => `(tactic| calm [calm_pure])
  | `(tactic| calm [$ls,*]) => do
    let alts ← ls.getElems.mapM fun l => `(tacticSeq| with_reducible exact $l)
    `(tactic| repeat' (first
      | with_reducible exact calm_pure | with_reducible exact calm_get | with_reducible exact calm_modify (fun _ => rfl) | with_reducible exact calm_fail
      | with_reducible exact calm_panic | with_reducible exact calm_usage | with_reducible exact calm_internal
      | with_reducible exact calm_writeBytes | with_reducible exact calm_flush
      | with_reducible refine calm_ite ?_ ?_
      | with_reducible refine Calm.bind ?_ fun _ => ?_
      | (first $[| $alts]*)
      | assumption))

theorem calm_slice {bytes : Bytes} {i j : Nat} : Calm (slice bytes i j) := by unfold slice; calm
theorem calm_csub {i j : Nat} : Calm (csub i j) := by unfold csub; calm

theorem calm_writeIndentationLoop {n : Nat} : Calm (writeIndentationLoop n) := by
  induction n with
  | zero => exact calm_pure
  | succ n ih => unfold writeIndentationLoop; calm [ih]

theorem calm_beforeContainerElement : Calm beforeContainerElement := by
  unfold beforeContainerElement writeIndentation increaseIndentation
  calm [calm_writeIndentationLoop]

theorem calm_beforeValueSeparator : Calm beforeValueSeparator := by
  unfold beforeValueSeparator
  refine calm_get.bind fun c => ?_
  refine calm_ite ?_ (calm_ite calm_beforeContainerElement calm_pure)
  cases c.settings.separator with
  | none => exact calm_usage
  | some => exact calm_writeBytes

theorem calm_beforeValue : Calm beforeValue := by
  unfold beforeValue
  calm [calm_beforeValueSeparator]
  exact calm_modify fun s => by split <;> rfl

theorem calm_onContainerEnd : Calm onContainerEnd := by
  unfold onContainerEnd decreaseIndentation writeIndentation
  calm [calm_csub, calm_writeIndentationLoop]

theorem calm_toHex {i : Nat} : Calm (toHex i) := by unfold toHex; calm
theorem calm_getUnicodeEscape {i : Nat} : Calm (getUnicodeEscape i) := by unfold getUnicodeEscape; calm [calm_toHex]

theorem calm_writeEscapedChar {c : Char} : Calm (writeEscapedChar c) := by
  unfold writeEscapedChar
  cases twoCharEscape c with
  | some => exact calm_writeBytes
  | none => dsimp only; calm [calm_csub, calm_getUnicodeEscape]

theorem calm_pieceLoop {bytes : Bytes} {cs : Text} {i n : Nat} : Calm (pieceLoop bytes cs i n) := by
  induction cs generalizing i n with
  | nil => exact calm_pure
  | cons c cs ih =>
    unfold pieceLoop
    calm [ih, calm_slice, calm_writeEscapedChar]

theorem calm_writeStringValuePiece {t : Text} : Calm (writeStringValuePiece t) := by
  unfold writeStringValuePiece
  calm [calm_slice, calm_pieceLoop]

theorem calm_writeStringValue {t : Text} : Calm (writeStringValue t) := by
  unfold writeStringValue
  calm [calm_writeStringValuePiece]

theorem calm_beginObject : Calm beginObject := by unfold beginObject; calm [calm_writeStringValuePiece, calm_beforeValue]
theorem calm_beginArray : Calm beginArray := by unfold beginArray; calm [calm_writeStringValuePiece, calm_beforeValue, calm_beforeValue]
theorem calm_name {t : Text} : Calm (name t) := by
  unfold name; calm [calm_beforeContainerElement, calm_writeStringValue]
theorem calm_endObject : Calm endObject := by unfold endObject; calm [calm_beforeContainerElement, calm_writeStringValue, calm_onContainerEnd]
theorem calm_endArray : Calm endArray := by unfold endArray; calm [calm_beforeContainerElement, calm_writeStringValue, calm_onContainerEnd, calm_onContainerEnd]
theorem calm_stringValue {t : Text} : Calm (stringValue t) := by
  unfold stringValue; calm [calm_beforeValue, calm_writeStringValue]
theorem calm_boolValue {b : Bool} : Calm (boolValue b) := by unfold boolValue; calm [calm_beforeValue, calm_writeStringValue, calm_beforeValue]
theorem calm_nullValue : Calm nullValue := by unfold nullValue; calm [calm_beforeValue, calm_writeStringValue, calm_beforeValue, calm_beforeValue]
theorem calm_numberValue {n : FinNum} : Calm (numberValue n) := by
  unfold numberValue FinNum.useJsonNumber
  cases n <;> dsimp only <;> calm [calm_beforeValue]
theorem calm_fpNumberValue {n : FpNum} : Calm (fpNumberValue n) := by
  unfold fpNumberValue FpNum.useJsonNumber
  calm [calm_beforeValue]
theorem calm_numberValueFromString {t : Text} : Calm (numberValueFromString t) := by
  unfold numberValueFromString
  calm [calm_beforeValue]
theorem calm_finishDocument : Calm finishDocument := by unfold finishDocument; calm
theorem calm_decodeUtf8Char {b : Bytes} : Calm (decodeUtf8Char b) := by
  unfold decodeUtf8Char
  cases Utf8.decodeUtf8 b <;> dsimp only <;> calm

theorem calm_fromUtf8 {b : Bytes} : Calm (fromUtf8 b) := by
  unfold fromUtf8
  cases Utf8.decodeUtf8 b <;> dsimp only <;> calm

theorem calm_setUtf8Buf {i : Nat} {b : Bytes} : Calm (setUtf8Buf i b) := by unfold setUtf8Buf; calm
theorem calm_setUtf8Pos {i : Nat} : Calm (setUtf8Pos i) := by unfold setUtf8Pos; calm

theorem calm_completeChar {b : Bytes} : Calm (completeChar b) := by
  unfold completeChar
  calm [calm_csub, calm_setUtf8Buf, calm_setUtf8Pos, calm_decodeUtf8Char, calm_slice, calm_writeStringValuePiece]

theorem calm_expectedBytesCount {b : UInt8} : Calm (expectedBytesCount b) := by unfold expectedBytesCount; calm

theorem calm_writeImplLoop {b : Bytes} {st fuel i : Nat} : Calm (writeImplLoop b st fuel i) := by
  induction fuel generalizing i with
  | zero => exact calm_internal
  | succ fuel ih =>
    unfold writeImplLoop
    split
    · dsimp only
      refine calm_ite ih (calm_expectedBytesCount.bind fun r => ?_)
      cases r with
      | none => exact ih
      | some x => dsimp only; calm [ih, calm_setUtf8Buf, calm_setUtf8Pos, calm_fromUtf8, calm_slice, calm_writeStringValuePiece]
    · calm [ih, calm_setUtf8Buf, calm_setUtf8Pos, calm_fromUtf8, calm_slice, calm_writeStringValuePiece]

theorem calm_maxOrOffsetNegative {i j k : Nat} : Calm (maxOrOffsetNegative i j k) := by
  unfold maxOrOffsetNegative; calm [calm_csub]

theorem calm_writeImpl {b : Bytes} : Calm (writeImpl b) := by
  unfold writeImpl; calm [calm_completeChar, calm_maxOrOffsetNegative, calm_writeImplLoop]

theorem calm_checkPreviousError : Calm checkPreviousError := by
  unfold checkPreviousError
  refine calm_get.bind fun c => ?_
  cases c.sv.error <;> dsimp only <;> calm

/-- as `Calm`, but `is_string_value_writer_active` may be changed if no call fails -/
def CalmE (m : W α) : Prop := ∀ s, (m.run s).Quiet (fun _ => True)
  fun r => (∃ e, r.1 = .error e ∧ e.isIo = true) ∧ r.2.stringWriterActive = s.stringWriterActive

theorem Calm.weaken {m : W α} (h : Calm m) : CalmE m := fun s => (h s).mono (fun _ _ => trivial) fun _ h => h

theorem Calm.bindE {m : W α} {f : α → W β} (h : Calm m) (hf : ∀ a, CalmE (f a)) : CalmE (m >>= f) := by
  intro s
  rw [T.run_bind]
  refine (h s).bind ?_ ?_
  · rintro ⟨_ | a, s'⟩ hs
    · exact trivial
    · refine (hf a s').mono (fun _ _ => trivial) ?_
      intro r hr; rw [hr.2]; exact ⟨hr.1, hs⟩
  · rintro ⟨_ | a, s'⟩ ⟨⟨e, he, hio⟩, hs⟩
    · cases he; exact ⟨⟨_, rfl, hio⟩, hs⟩
    · cases he

theorem calmE_modify {g : Core → Core} : CalmE (T.modify g : W Unit) := fun _ => trivial

theorem calm_svFinishValue : CalmE svFinishValue := by
  unfold svFinishValue
  refine calm_checkPreviousError.bindE fun _ => calm_get.bindE fun c => ?_
  by_cases h : 0 < c.sv.utf8Pos
  · rw [if_pos h]; exact calm_fail.weaken
  · rw [if_neg h]; exact calm_writeBytes.bindE fun _ => calmE_modify

theorem calm_stringValueWriter : CalmE stringValueWriter := by
  unfold stringValueWriter
  exact calm_beforeValue.bindE fun _ => calm_writeBytes.bindE fun _ => calmE_modify

/-- in addition an error is tracked, with which later calls fail -/
def CalmSv {α : Type} (m : W α) : Prop := ∀ s, (m.run s).Quiet (fun r => r.2.stringWriterActive = s.stringWriterActive)
  fun r => (∃ e, r.1 = .error e ∧ e.isIo = true) ∧ r.2.sv.error.isSome = true ∧ r.2.stringWriterActive = s.stringWriterActive

theorem checkPreviousError_cases (s : Core) : (s.sv.error = none ∧ checkPreviousError.run s = .ret (.ok (), s)) ∨
    ∃ e, s.sv.error = some e ∧ checkPreviousError.run s = .ret (.error (.previous e), s) := by
  unfold checkPreviousError
  rw [T.run_bind]
  show (_ ∧ T.run (match s.sv.error with | none => pure () | some e => T.fail (.previous e) : W Unit) s = _) ∨
    ∃ e, _ ∧ T.run (match s.sv.error with | none => pure () | some e => T.fail (.previous e) : W Unit) s = _
  cases h : s.sv.error with
  | none => exact .inl ⟨rfl, rfl⟩
  | some e => exact .inr ⟨e, rfl, rfl⟩

theorem calm_runWithErrorTracking {α : Type} {m : W α} (h : Calm m) : CalmSv (runWithErrorTracking m) := by
  intro s
  unfold runWithErrorTracking
  rw [T.run_bind]
  rcases checkPreviousError_cases s with ⟨hn, h1⟩ | ⟨e, he, h1⟩
  · rw [h1]
    show (T.run (T.attempt m >>= _) s).Quiet _ _
    rw [T.run_bind]
    show (Tree.bind (Tree.bind (m.run s) _) _).Quiet _ _
    refine Tree.QuietB.bind (P := fun r => ∃ x s', r = (.ok x, s') ∧ s'.stringWriterActive = s.stringWriterActive)
      (E := fun r => ∃ e s', r = (.ok (.error e), s') ∧ e.isIo = true ∧ s'.stringWriterActive = s.stringWriterActive) ?_ ?_ ?_
    · refine (h s).bind ?_ ?_
      · rintro ⟨r, s'⟩ hs; exact ⟨_, _, rfl, hs⟩
      · rintro ⟨r, s'⟩ ⟨⟨e, he, hio⟩, hs⟩
        dsimp only at he
        subst he
        exact ⟨_, _, rfl, hio, hs⟩
    · rintro _ ⟨x, s', rfl, hs⟩
      cases x with
      | ok a => exact hs
      | error e => exact hs
    · rintro _ ⟨e, s', rfl, hio, hs⟩
      exact ⟨⟨_, rfl, hio⟩, rfl, hs⟩
  · rw [h1]
    rfl

theorem calm_svOp {o : SvOp} : CalmSv (svOp o) := by
  have key : ∀ {m : W Unit}, CalmSv m → CalmSv (m >>= fun _ => pure 0 : W Nat) := by
    intro m hm s
    rw [T.run_bind]
    refine (hm s).bind ?_ ?_
    · rintro ⟨_ | a, s'⟩ hs <;> exact hs
    · rintro ⟨_ | a, s'⟩ ⟨⟨e, he, hio⟩, h2⟩
      · cases he; exact ⟨⟨_, rfl, hio⟩, h2⟩
      · cases he
  cases o with
  | write bs => exact calm_runWithErrorTracking calm_writeImpl
  | writeStr t =>
    refine key (calm_runWithErrorTracking ?_)
    calm [calm_writeStringValuePiece]
  | flush => exact key (calm_runWithErrorTracking calm_flush)

/-- after an error every call fails, without any effect -/
theorem svOp_sticky {o : SvOp} {s : Core} {e : WErr} (h : s.sv.error = some e) : (svOp o).run s = .ret (.error (.previous e), s) := by
  have key : ∀ {α : Type} {m : W α}, (runWithErrorTracking m).run s = .ret (.error (.previous e), s) := by
    intro α m
    unfold runWithErrorTracking
    rw [T.run_bind]
    rcases checkPreviousError_cases s with ⟨h1, _⟩ | ⟨e', h1, h2⟩
    · rw [h] at h1; cases h1
    · rw [h] at h1; cases h1; rw [h2]; rfl
  cases o with
  | write bs => exact key
  | writeStr t => show T.run (svWriteStr t >>= _) s = _; rw [T.run_bind, svWriteStr, key]; rfl
  | flush => show T.run (svFlush >>= _) s = _; rw [T.run_bind, svFlush, key]; rfl

theorem svOps_sticky {os : List SvOp} {s : Core} {e : WErr} (h : s.sv.error = some e) :
    (svOps os).run s = .ret (.ok (os.map fun _ => .error (.previous e)), s) := by
  induction os with
  | nil => rfl
  | cons o os ih =>
    rw [svOps, T.run_bind]
    show (Tree.bind (Tree.bind ((svOp o).run s) _) _) = _
    rw [svOp_sticky h]
    show (T.run (svOps os >>= _) s) = _
    rw [T.run_bind, ih]
    rfl

theorem svFinish_sticky {s : Core} {e : WErr} (h : s.sv.error = some e) : svFinishValue.run s = .ret (.error (.previous e), s) := by
  unfold svFinishValue
  rw [T.run_bind]
  rcases checkPreviousError_cases s with ⟨h1, _⟩ | ⟨e', h1, h2⟩
  · rw [h] at h1; cases h1
  · rw [h] at h1; cases h1; rw [h2]; rfl

/-- a result of a call of the string value writer is an error -/
def SvBad (rs : List (Except WErr Nat)) : Prop := ∃ e, Except.error e ∈ rs

/-- After an IO error all remaining calls fail; the string value writer is still active -/
theorem calm_svOps {os : List SvOp} : ∀ s : Core, ((svOps os).run s).Quiet (fun r => r.2.stringWriterActive = s.stringWriterActive)
    fun r => (∃ rs, r.1 = .ok rs ∧ SvBad rs) ∧ r.2.sv.error.isSome = true ∧ r.2.stringWriterActive = s.stringWriterActive := by
  induction os with
  | nil => exact fun _ => rfl
  | cons o os ih =>
    intro s
    rw [svOps, T.run_bind]
    show (Tree.bind (Tree.bind ((svOp o).run s) _) _).Quiet _ _
    refine Tree.QuietB.bind (P := fun r => ∃ x s', r = (.ok x, s') ∧ s'.stringWriterActive = s.stringWriterActive)
      (E := fun r => ∃ e s', r = (.ok (.error e), s') ∧ s'.sv.error.isSome = true ∧ s'.stringWriterActive = s.stringWriterActive) ?_ ?_ ?_
    · refine (calm_svOp s).bind ?_ ?_
      · rintro ⟨r, s'⟩ hs; exact ⟨_, _, rfl, hs⟩
      · rintro ⟨r, s'⟩ ⟨⟨e, he, hio⟩, h2, hs⟩
        dsimp only at he
        subst he
        exact ⟨_, _, rfl, h2, hs⟩
    · rintro _ ⟨x, s', rfl, hs⟩
      show (T.run (svOps os >>= _) s').Quiet _ _
      rw [T.run_bind]
      refine (ih s').bind ?_ ?_
      · rintro ⟨_ | rs, s''⟩ h'
        · exact h'.trans hs
        · exact h'.trans hs
      · rintro ⟨_ | rs, s''⟩ ⟨⟨rs', h1, e, he⟩, h2, h3⟩
        · cases h1
        · cases h1
          exact ⟨⟨_, rfl, e, List.mem_cons_of_mem _ he⟩, h2, h3.trans hs⟩
    · rintro _ ⟨e, s', rfl, h2, hs⟩
      show (T.run (svOps os >>= _) s').Silent _
      obtain ⟨e', he'⟩ := Option.isSome_iff_exists.1 h2
      rw [T.run_bind, svOps_sticky he']
      exact ⟨⟨_, rfl, e, List.mem_cons_self ..⟩, h2, hs⟩

/-- Result of a call during which a call of the underlying `Write` failed: the error, or for string value writers one of the results is an error and the
writer remains active -/
def Failed (r : Except WErr WOut × Core) : Prop := (∃ e, r.1 = .error e ∧ e.isIo = true) ∨
  ∃ rs f, r.1 = .ok (.string rs f) ∧ (SvBad rs ∨ ∃ e, f = some (.error e)) ∧ r.2.stringWriterActive = true

theorem quiet_string (ops : List SvOp) (fin : Bool) (s : Core) : ((wop (.stringValueWriter ops fin)).run s).Quiet (fun _ => True) Failed := by
  show (T.run (stringValueWriter >>= _) s).Quiet _ _
  have hact : (stringValueWriter.run s).Quiet (fun r => r.1 = .ok () → r.2.stringWriterActive = true)
      fun r => (∃ e, r.1 = .error e ∧ e.isIo = true) ∧ r.2.stringWriterActive = s.stringWriterActive := by
    unfold stringValueWriter
    rw [T.run_bind]
    refine (calm_beforeValue s).bind ?_ ?_
    · rintro ⟨_ | a, s'⟩ hs
      · exact nofun
      · exact ⟨fun _ => rfl, fun e he => ⟨⟨e, rfl, he⟩, hs⟩⟩
    · rintro ⟨_ | a, s'⟩ ⟨⟨e, he, hio⟩, hs⟩
      · cases he; exact ⟨⟨_, rfl, hio⟩, hs⟩
      · cases he
  rw [T.run_bind]
  refine hact.bind ?_ ?_
  · rintro ⟨_ | a, s'⟩ hs
    · exact trivial
    · have hs := hs rfl
      show (T.run (svOps ops >>= _) s').Quiet _ _
      rw [T.run_bind]
      refine (calm_svOps s').bind ?_ ?_
      · rintro ⟨_ | rs, s''⟩ h'
        · exact trivial
        · dsimp only at h' ⊢
          cases fin with
          | false => exact trivial
          | true =>
            rw [if_pos rfl]
            show (Tree.bind (Tree.bind (svFinishValue.run s'') _) _).Quiet _ _
            refine Tree.QuietB.bind (P := fun r => ∃ x s', r = (.ok x, s')) (E := fun r => ∃ e s', r = (.ok (.error e), s') ∧ s'.stringWriterActive = true) ?_ ?_ ?_
            · refine (calm_svFinishValue s'').bind ?_ ?_
              · rintro ⟨r, s3⟩ -; exact ⟨_, _, rfl⟩
              · rintro ⟨r, s3⟩ ⟨⟨e, he, -⟩, h2⟩
                dsimp only at he
                subst he
                exact ⟨_, _, rfl, h2.trans (h'.trans hs)⟩
            · rintro _ ⟨x, s3, rfl⟩; trivial
            · rintro _ ⟨e, s3, rfl, h3⟩
              exact .inr ⟨_, _, rfl, .inr ⟨e, rfl⟩, h3⟩
      · rintro ⟨_ | rs, s''⟩ ⟨⟨rs', h1, hb⟩, h2, h3⟩
        · cases h1
        · cases h1
          dsimp only at h2 h3 ⊢
          cases fin with
          | false => exact .inr ⟨_, _, rfl, .inl hb, h3.trans hs⟩
          | true =>
            rw [if_pos rfl]
            obtain ⟨e', he'⟩ := Option.isSome_iff_exists.1 h2
            show (Tree.bind (Tree.bind (svFinishValue.run s'') _) _).Silent _
            rw [svFinish_sticky he']
            exact .inr ⟨_, _, rfl, .inl hb, h3.trans hs⟩
  · rintro ⟨_ | a, s'⟩ ⟨⟨e, he, hio⟩, hs⟩
    · cases he; exact .inl ⟨_, rfl, hio⟩
    · cases he

/-- all methods except for `string_value_writer` -/
theorem quiet_wop_other (op : WOp) (s : Core) (hop : ∀ ops fin, op ≠ .stringValueWriter ops fin) : ((wop op).run s).Quiet (fun _ => True) fun r => ∃ e, r.1 = .error e ∧ e.isIo = true := by
  have key : ∀ {m : W Unit}, Calm m → ((m >>= fun _ => pure WOut.unit : W WOut).run s).Quiet (fun _ => True) fun r => ∃ e, r.1 = .error e ∧ e.isIo = true := by
    intro m hm
    exact ((hm.bind fun _ => calm_pure) s).mono (fun _ _ => trivial) fun _ h => h.1
  cases op with
  | beginObject => exact key calm_beginObject
  | name n => exact key calm_name
  | endObject => exact key calm_endObject
  | beginArray => exact key calm_beginArray
  | endArray => exact key calm_endArray
  | stringValue t => exact key calm_stringValue
  | boolValue b => exact key calm_boolValue
  | nullValue => exact key calm_nullValue
  | numberValue n => exact key calm_numberValue
  | fpNumberValue n => exact key calm_fpNumberValue
  | numberValueFromString t => exact key calm_numberValueFromString
  | stringValueWriter ops fin => exact absurd rfl (hop ops fin)
  | finishDocument => exact key calm_finishDocument

theorem quiet_wop (op : WOp) (s : Core) : ((wop op).run s).Quiet (fun _ => True) Failed := by
  by_cases h : ∃ ops fin, op = .stringValueWriter ops fin
  · obtain ⟨ops, fin, rfl⟩ := h
    exact quiet_string ops fin s
  · exact (quiet_wop_other op s fun ops fin hs => h ⟨ops, fin, hs⟩).mono (fun _ _ => trivial) fun _ h => .inl h

/-- while a string value writer is active, every call panics or rejects a number; nothing is emitted -/
theorem active_silent (op : WOp) (s : Core) (h : s.stringWriterActive = true) :
    ((wop op).run s).SilentW fun r => r.1 = .error .invalidNumber ∧ r.2 = s := by
  have bv : beforeValue.run s = .panic (.usage .valueStringWriterActive) := by
    unfold beforeValue
    show (T.run (if s.stringWriterActive = true then _ else _ : W Unit) s) = _
    rw [if_pos h]; rfl
  have bind : ∀ {m : W Unit} {p : WPanic}, m.run s = .panic p → ((m >>= fun _ => pure WOut.unit : W WOut).run s).SilentW fun r => r.1 = .error .invalidNumber ∧ r.2 = s := by
    intro m p hm
    rw [T.run_bind, hm]; trivial
  have bvb : ∀ {β : Type} {f : Unit → W β}, (beforeValue >>= f).run s = .panic (.usage .valueStringWriterActive) := by
    intro β f; rw [T.run_bind, bv]; rfl
  cases op with
  | beginObject => exact bind bvb
  | beginArray => exact bind bvb
  | stringValue t => exact bind bvb
  | boolValue b => exact bind bvb
  | nullValue => exact bind bvb
  | stringValueWriter ops fin =>
    show (T.run (stringValueWriter >>= _) s).SilentW _
    rw [T.run_bind, show stringValueWriter.run s = .panic (.usage .valueStringWriterActive) from bvb]
    trivial
  | name n =>
    show (T.run (name n >>= _) s).SilentW _
    unfold name
    show (T.run ((if (!s.expectsMemberName) = true then _ else (if s.stringWriterActive = true then _ else _) : W Unit) >>= _) s).SilentW _
    rw [if_pos h]
    split <;> exact bind rfl
  | endObject =>
    show (T.run (endObject >>= _) s).SilentW _
    unfold endObject
    show (T.run ((if (!isInObject s) = true then _ else (if s.stringWriterActive = true then _ else _) : W Unit) >>= _) s).SilentW _
    rw [if_pos h]
    split <;> exact bind rfl
  | endArray =>
    show (T.run (endArray >>= _) s).SilentW _
    unfold endArray
    show (T.run ((if (!isInArray s) = true then _ else (if s.stringWriterActive = true then _ else _) : W Unit) >>= _) s).SilentW _
    rw [if_pos h]
    split <;> exact bind rfl
  | finishDocument =>
    show (T.run (finishDocument >>= _) s).SilentW _
    unfold finishDocument
    show (T.run ((if s.stringWriterActive = true then _ else _ : W Unit) >>= _) s).SilentW _
    rw [if_pos h]
    exact bind rfl
  | numberValue n =>
    show (T.run (numberValue n >>= _) s).SilentW _
    unfold numberValue FinNum.useJsonNumber
    cases n with
    | int t v =>
      dsimp only
      split
      · exact bind bvb
      · exact bind rfl
    | transferred t => exact bind bvb
  | fpNumberValue n =>
    show (T.run (fpNumberValue n >>= _) s).SilentW _
    unfold fpNumberValue FpNum.useJsonNumber
    split
    · split
      · exact bind bvb
      · exact bind rfl
    · exact ⟨rfl, rfl⟩
  | numberValueFromString t =>
    show (T.run (numberValueFromString t >>= _) s).SilentW _
    unfold numberValueFromString
    split
    · exact bind bvb
    · exact ⟨rfl, rfl⟩

/-- the result contains an error -/
def Bad (r : Except WErr WOut) : Prop := (∃ e, r = .error e ∧ e.isIo = true) ∨ ∃ xs f, r = .ok (.string xs f) ∧ (SvBad xs ∨ ∃ e, f = some (.error e))

/-- one of the results is an error which has been caused by the underlying `Write`; after that there are no successful calls -/
def Reported (rs : List (Except WErr WOut)) : Prop := ∃ pre r post, rs = pre ++ r :: post ∧ Bad r ∧ ∀ x ∈ post, x = .error .invalidNumber

theorem active_wops (ops : List WOp) (s : Core) (h : s.stringWriterActive = true) : ((wops ops).run s).SilentW fun r => ∃ rs, r.1 = .ok rs ∧ ∀ x ∈ rs, x = .error .invalidNumber := by
  induction ops with
  | nil => exact ⟨_, rfl, nofun⟩
  | cons o os ih =>
    rw [wops]
    refine (active_silent o s h).bind ?_
    rintro ⟨_ | x, s'⟩ ⟨h1, h2⟩
    · cases h1
      dsimp only at h2
      subst h2
      dsimp only
      rw [if_pos rfl]
      refine ih.bind ?_
      rintro ⟨e | rs, s''⟩ ⟨_, h4, h5⟩
      · nomatch e
      · cases h4
        refine ⟨_, rfl, fun x hx => ?_⟩
        rcases List.mem_cons.1 hx with rfl | hx
        · rfl
        · exact h5 x hx
    · cases h1

/-- a string is written with a string value writer -/
def HasString (ops : List WOp) : Prop := ∃ os fin, .stringValueWriter os fin ∈ ops

theorem Tree.SilentB.imp {β : Type} {pan pan' : Prop} {E : β → Prop} {t : Tree β} (h : t.SilentB pan E) (hp : pan → pan') : t.SilentB pan' E := by
  cases t with
  | ret b => exact h
  | panic => exact hp h
  | emit => exact h.elim
  | flush => exact h.elim

theorem Tree.QuietB.imp {β : Type} {pan pan' : Prop} {P E : β → Prop} {t : Tree β} (h : t.QuietB pan P E) (hp : pan → pan') : t.QuietB pan' P E := by
  induction t with
  | ret b => exact h
  | panic => trivial
  | emit bs k ih => exact ⟨ih _ h.1, fun e he => (h.2 e he).imp hp⟩
  | flush k ih => exact ⟨ih _ h.1, fun e he => (h.2 e he).imp hp⟩

/-- After a failed call of the underlying `Write` nothing more is emitted, and the failure is reported. There are no panics unless a string value writer is used. -/
theorem quiet_wops (ops : List WOp) (s : Core) : ((wops ops).run s).QuietB (HasString ops) (fun _ => True) fun r => ∃ rs, r.1 = .ok rs ∧ Reported rs := by
  induction ops generalizing s with
  | nil => trivial
  | cons o os ih =>
    rw [wops]
    have cont : ∀ (x : Except WErr WOut) (s' : Core), Tree.QuietB (HasString (o :: os)) (fun _ => True) (fun r => ∃ rs, r.1 = .ok rs ∧ Reported rs)
        (((wops os).run s').bind fun (r : Except Empty (List (Except WErr WOut)) × Core) => (match r with
          | (.ok rs, c'') => .ret (.ok (x :: rs), c'')
          | (.error e, _) => nomatch e : Tree (Except Empty (List (Except WErr WOut)) × Core))) := by
      intro x s'
      refine ((ih s').imp fun ⟨a, b, h⟩ => ⟨a, b, List.mem_cons_of_mem _ h⟩).bind ?_ ?_
      · rintro ⟨e | rs, s''⟩ -
        · nomatch e
        · trivial
      · rintro ⟨e | rs, s''⟩ ⟨rs', h1, pre, r, post, h2, h3⟩
        · nomatch e
        · cases h1
          exact ⟨_, rfl, x :: pre, r, post, by rw [h2]; rfl, h3⟩
    have ho : ((wop o).run s).QuietB (HasString (o :: os)) (fun _ => True) fun r => Failed r ∧ ((∃ e, r.1 = .error e) ∨ HasString (o :: os)) := by
      by_cases hs : ∃ ops fin, o = .stringValueWriter ops fin
      · exact ((quiet_wop o s).imp False.elim).mono (fun _ _ => trivial) fun r hr => ⟨hr, .inr (by obtain ⟨ops, fin, rfl⟩ := hs; exact ⟨ops, fin, List.mem_cons_self ..⟩)⟩
      · exact ((quiet_wop_other o s fun ops fin h => hs ⟨ops, fin, h⟩).imp False.elim).mono (fun _ _ => trivial) fun r ⟨e, h1, h2⟩ => ⟨.inl ⟨e, h1, h2⟩, .inl ⟨e, h1⟩⟩
    refine ho.bind ?_ ?_
    · rintro ⟨e | x, s'⟩ -
      · dsimp only
        split
        · exact cont _ s'
        · trivial
      · dsimp only
        split
        · trivial
        · exact cont _ s'
    · rintro ⟨e | x, s'⟩ ⟨(⟨e', h1, h2⟩ | ⟨rs, f, h1, h2, h3⟩), hs⟩
      · cases h1
        dsimp only
        rw [if_neg (by rintro rfl; cases h2)]
        exact ⟨_, rfl, [], _, [], rfl, .inl ⟨e, rfl, h2⟩, nofun⟩
      · cases h1
      · cases h1
      · cases h1
        dsimp only
        split
        · exact ⟨_, rfl, [], _, [], rfl, .inr ⟨rs, f, rfl, h2⟩, nofun⟩
        · refine ((active_wops os s' h3).imp fun _ => hs.resolve_left (by rintro ⟨_, h⟩; cases h)).bind ?_
          rintro ⟨e | rs', s''⟩ ⟨_, h4, h5⟩
          · nomatch e
          · cases h4
            exact ⟨_, rfl, [], _, rs', rfl, .inr ⟨rs, f, rfl, h2⟩, h5⟩

end Verif.Writer
