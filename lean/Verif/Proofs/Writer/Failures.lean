import Verif.Proofs.Writer.Ops
import Verif.Spec.WriterFailures
/-!
# No error of the underlying `Write` is lost

Every failing call of the underlying `Write` is reported by the method which has caused it.
-/

namespace Verif.Writer
open Utf8 WReason

variable {α β : Type}

/-- All results satisfy `P`, which depends on the failures of `write_bytes` and `flush`; `acc` are those which happened before -/
def Tree.Tr (P : List WErr → β → Prop) : List WErr → Tree β → Prop
  | acc, .ret b => P acc b
  | _, .panic _ => True
  | acc, .emit _ k => (k (.ok ())).Tr P acc ∧ ∀ e, e.isIo = true → (k (.error e)).Tr P (acc ++ [e])
  | acc, .flush k => (k (.ok ())).Tr P acc ∧ ∀ e, e.isIo = true → (k (.error e)).Tr P (acc ++ [e])

theorem Tree.Tr.bind {P : List WErr → α → Prop} {Q : List WErr → β → Prop} {t : Tree α} {f : α → Tree β} {acc : List WErr} (h : t.Tr P acc)
    (hf : ∀ acc a, P acc a → (f a).Tr Q acc) : (t.bind f).Tr Q acc := by
  induction t generalizing acc with
  | ret b => exact hf _ _ h
  | panic => trivial
  | emit bs k ih => exact ⟨ih _ h.1, fun e he => ih _ (h.2 e he)⟩
  | flush k ih => exact ⟨ih _ h.1, fun e he => ih _ (h.2 e he)⟩

/-! ## The underlying `Write` -/

theorem merge_append {xs ys zs xs' ys' zs' : List WErr} (h : Merge xs ys zs) (h' : Merge xs' ys' zs') : Merge (xs ++ xs') (ys ++ ys') (zs ++ zs') := by
  induction h with
  | nil => exact h'
  | left _ ih => exact .left ih
  | right _ ih => exact .right ih

/-- From `k` to `k'` the underlying `Write` has failed with `errs` -/
def FailedWith (k k' : Sink) (errs : List WErr) : Prop := ∃ ws fs, k.writes = ws ++ k'.writes ∧ k.flushes = fs ++ k'.flushes ∧
  Merge (writeFailures ws) (flushFailures fs) errs

theorem FailedWith.refl {k k' : Sink} (h : k.writes = k'.writes) (h' : k.flushes = k'.flushes) : FailedWith k k' [] := ⟨[], [], h, h', .nil⟩

theorem FailedWith.trans {k k' k'' : Sink} {a b : List WErr} (h : FailedWith k k' a) (h' : FailedWith k' k'' b) : FailedWith k k'' (a ++ b) := by
  obtain ⟨ws, fs, h1, h2, h3⟩ := h
  obtain ⟨ws', fs', h4, h5, h6⟩ := h'
  refine ⟨ws ++ ws', fs ++ fs', by rw [h1, h4, List.append_assoc], by rw [h2, h5, List.append_assoc], ?_⟩
  rw [writeFailures, flushFailures, List.filterMap_append, List.filterMap_append]
  exact merge_append h3 h6

/-- The error of a call as list -/
def errOf (r : Except WErr Unit) : List WErr := match r with
  | .error e => [e]
  | .ok _ => []

theorem writeAll_failed {data received : Bytes} {es es' : List WriteEvent} {r : Except WErr Unit} {rec' : Bytes}
    (h : writeAll data received es = (r, rec', es')) : ∃ ws, es = ws ++ es' ∧ writeFailures ws = errOf r ∧ ∀ e, r = .error e → e.isIo = true := by
  induction es generalizing data received with
  | nil => simp only [writeAll, Prod.mk.injEq] at h; obtain ⟨rfl, _, rfl⟩ := h; exact ⟨[], rfl, rfl, nofun⟩
  | cons e es ih =>
    unfold writeAll at h
    split at h
    · cases h; exact ⟨[], rfl, rfl, nofun⟩
    · cases e with
      | interrupted => obtain ⟨ws, rfl, h2, h3⟩ := ih h; exact ⟨.interrupted :: ws, rfl, h2, h3⟩
      | error c => cases h; exact ⟨[.error c], rfl, rfl, fun e he => by cases he; rfl⟩
      | accept n =>
        dsimp only at h
        split at h
        · rename_i hn
          subst hn
          cases h
          exact ⟨[.accept 0], rfl, rfl, fun e he => by cases he; rfl⟩
        · obtain ⟨ws, rfl, h2, h3⟩ := ih h
          obtain ⟨n, rfl⟩ : ∃ m, n = m + 1 := ⟨n - 1, by omega⟩
          exact ⟨.accept (n + 1) :: ws, rfl, h2, h3⟩

/-- The result of `write_bytes` or `flush` started with `k`: the underlying `Write` has failed exactly if an error is returned, and with this error -/
def EndsWith (k : BufSink) (r : Res SinkErr BufSink Unit) : Prop := match r with
  | .ok _ k' => FailedWith k.sink k'.sink []
  | .err (.err e) k' => FailedWith k.sink k'.sink [e] ∧ e.isIo = true
  | .err (.panic _) _ => True

theorem merge_left (xs : List WErr) : Merge xs [] xs := by
  induction xs with
  | nil => exact .nil
  | cons x xs ih => exact .left ih

theorem sinkWriteAll_ends_with {data : Bytes} {k : BufSink} : EndsWith k ((sinkWriteAll data).run k) := by
  show EndsWith k (match k.sink.writeAll data with
    | (.ok (), s) => .ok () { k with sink := s }
    | (.error e, s) => .err (.err e) { k with sink := s })
  simp only [Sink.writeAll]
  generalize hw : Writer.writeAll data k.sink.received k.sink.writes = r
  obtain ⟨r, rec', es⟩ := r
  obtain ⟨ws, h1, h2, h3⟩ := writeAll_failed hw
  have hf : FailedWith k.sink { k.sink with received := rec', writes := es } (errOf r) := ⟨ws, [], h1, rfl, by rw [h2]; exact merge_left _⟩
  cases r with
  | ok => exact hf
  | error e => exact ⟨hf, h3 e rfl⟩

theorem sinkFlush_ends_with {k : BufSink} : EndsWith k (sinkFlush.run k) := by
  show EndsWith k (match k.sink.flush with
    | (.ok (), s) => .ok () { k with sink := s }
    | (.error e, s) => .err (.err e) { k with sink := s })
  unfold Sink.flush
  split
  · rename_i h
    split at h
    · cases h; exact FailedWith.refl rfl rfl
    · rename_i hf; cases h; exact ⟨[], [none], rfl, hf, .nil⟩
    · cases h
  · rename_i h
    split at h
    · cases h
    · cases h
    · rename_i hf
      cases h
      exact ⟨⟨[], [some _], rfl, hf, .right .nil⟩, rfl⟩

theorem EndsWith.bind {m : M SinkErr BufSink Unit} {f : Unit → M SinkErr BufSink Unit} {k : BufSink} (h : EndsWith k (m.run k))
    (hf : ∀ k', EndsWith k' ((f ()).run k')) : EndsWith k ((m >>= f).run k) := by
  generalize hr : m.run k = r at h
  match r, h, hr with
  | .err (.err e) k', h, hr => rw [M.bind_err hr]; exact h
  | .err (.panic p) k', _, hr => rw [M.bind_err hr]; trivial
  | .ok _ k', h, hr =>
    rw [M.bind_ok hr]
    have := hf k'
    generalize (f ()).run k' = r at this
    match r, this with
    | .ok _ _, h' => exact h.trans h'
    | .err (.err e) _, h' => exact ⟨h.trans h'.1, h'.2⟩
    | .err (.panic p) _, _ => trivial

theorem EndsWith.of_sink {k k' : BufSink} {r : Res SinkErr BufSink Unit} (h : EndsWith k' r) (hk : k.sink = k'.sink) : EndsWith k r := by
  match r, h with
  | .ok _ _, h => simp only [EndsWith] at h ⊢; rw [hk]; exact h
  | .err (.err e) _, h => simp only [EndsWith] at h ⊢; rw [hk]; exact h
  | .err (.panic p) _, _ => trivial

theorem writeBytesLoop_ends_with {fuel : Nat} {bytes : Bytes} {k : BufSink} : EndsWith k ((writeBytesLoop fuel bytes).run k) := by
  induction fuel generalizing bytes k with
  | zero => trivial
  | succ fuel ih =>
    unfold writeBytesLoop
    by_cases he : bytes.isEmpty = true
    · rw [if_pos he]; exact FailedWith.refl rfl rfl
    · rw [if_neg he]
      rw [M.bind_ok (M.run_get _)]
      dsimp only
      rw [M.bind_ok (M.run_modify _ _), M.bind_ok (M.run_get _)]
      dsimp only
      split
      · refine EndsWith.of_sink (EndsWith.bind sinkWriteAll_ends_with fun k' => ?_) rfl
        rw [M.bind_ok (M.run_modify _ _)]
        exact EndsWith.of_sink ih rfl
      · exact EndsWith.of_sink ih rfl

theorem writeBytes_ends_with {bytes : Bytes} {k : BufSink} : EndsWith k ((writeBytes bytes).run k) := writeBytesLoop_ends_with

theorem flush_ends_with {k : BufSink} : EndsWith k (flush.run k) := by
  unfold flush
  rw [M.bind_ok (M.run_get _)]
  refine EndsWith.bind sinkWriteAll_ends_with fun k' => ?_
  rw [M.bind_ok (M.run_modify _ _)]
  exact EndsWith.of_sink sinkFlush_ends_with rfl

theorem Tree.Tr.run {P : List WErr → β → Prop} {t : Tree β} {acc : List WErr} (h : t.Tr P acc) {k k' : BufSink} {b : β} (hr : t.run.run k = .ok b k') :
    ∃ errs, FailedWith k.sink k'.sink errs ∧ P (acc ++ errs) b := by
  induction t generalizing k acc with
  | ret b' => cases hr; exact ⟨[], .refl rfl rfl, by rw [List.append_nil]; exact h⟩
  | panic => cases hr
  | emit bs f ih =>
    have hw := writeBytes_ends_with (bytes := bs) (k := k)
    unfold Tree.run at hr
    dsimp only at hr
    generalize (writeBytes bs).run k = r at hw hr
    match r, hw, hr with
    | .ok _ k1, hw, hr =>
      obtain ⟨errs, h1, h2⟩ := ih _ h.1 hr
      exact ⟨errs, hw.trans h1, h2⟩
    | .err (.err e) k1, hw, hr =>
      obtain ⟨errs, h1, h2⟩ := ih _ (h.2 e hw.2) hr
      exact ⟨_, hw.1.trans h1, by rw [← List.append_assoc]; exact h2⟩
    | .err (.panic p) k1, hw, hr => cases hr
  | flush f ih =>
    have hw := flush_ends_with (k := k)
    unfold Tree.run at hr
    dsimp only at hr
    generalize Writer.flush.run k = r at hw hr
    match r, hw, hr with
    | .ok _ k1, hw, hr =>
      obtain ⟨errs, h1, h2⟩ := ih _ h.1 hr
      exact ⟨errs, hw.trans h1, h2⟩
    | .err (.err e) k1, hw, hr =>
      obtain ⟨errs, h1, h2⟩ := ih _ (h.2 e hw.2) hr
      exact ⟨_, hw.1.trans h1, by rw [← List.append_assoc]; exact h2⟩
    | .err (.panic p) k1, hw, hr => cases hr

/-! ## The methods -/

theorem ioError_isIo {e : WErr} (h : e.isIo = true) : ioError (.error e : Except WErr α) = [e] := by
  cases e <;> first | rfl | cases h

theorem ioError_own {e : WErr} (h : e.isIo = false) : ioError (.error e : Except WErr α) = [] := by
  cases e <;> first | rfl | cases h

theorem ioError_error (e : WErr) : ioError (.error e : Except WErr α) = ioError (.error e : Except WErr β) := by
  cases e <;> rfl

/-- The method reports the failures of the underlying `Write` -/
def Rp (m : W α) : Prop := ∀ c acc, (m.run c).Tr (fun acc' r => acc' = acc ++ ioError r.1) acc

theorem Rp.bind {m : W α} {f : α → W β} (h : Rp m) (hf : ∀ a, Rp (f a)) : Rp (m >>= f) := by
  intro c acc
  rw [T.run_bind]
  refine (h c acc).bind fun acc' r hr => ?_
  obtain ⟨r, c'⟩ := r
  subst hr
  cases r with
  | ok a =>
    show ((f a).run c').Tr _ (acc ++ [])
    rw [List.append_nil]
    exact hf a c' acc
  | error e => exact congrArg (acc ++ ·) (ioError_error e)

theorem rp_pure {a : α} : Rp (pure a : W α) := fun _ acc => (List.append_nil acc).symm
theorem rp_get : Rp (T.get : W Core) := fun _ acc => (List.append_nil acc).symm
theorem rp_modify {g : Core → Core} : Rp (T.modify g : W Unit) := fun _ acc => (List.append_nil acc).symm
theorem rp_fail {e : WErr} (h : e.isIo = false) : Rp (T.fail e : W α) := fun _ acc => by
  show acc = acc ++ ioError (.error e : Except WErr α)
  rw [ioError_own h, List.append_nil]
theorem rp_usage {u : WUsage} : Rp (T.usage u : W α) := fun _ _ => trivial
theorem rp_internal {u : WInternal} : Rp (T.internal u : W α) := fun _ _ => trivial
theorem rp_writeBytes {bs : Bytes} : Rp (T.writeBytes bs : W Unit) :=
  fun _ acc => ⟨(List.append_nil acc).symm, fun e he => by show acc ++ [e] = acc ++ ioError (.error e : Except WErr Unit); rw [ioError_isIo he]⟩
theorem rp_flush : Rp (T.flush : W Unit) :=
  fun _ acc => ⟨(List.append_nil acc).symm, fun e he => by show acc ++ [e] = acc ++ ioError (.error e : Except WErr Unit); rw [ioError_isIo he]⟩
theorem rp_ite {p : Prop} [Decidable p] {m m' : W α} (h : Rp m) (h' : Rp m') : Rp (if p then m else m') := by
  split <;> assumption

/-- proves `Rp` for straight line code, with lemmas for the called methods -/
syntax "rp" ("[" term,* "]")? : tactic
macro_rules
  | `(tactic| rp) => `(tactic| rp [rp_pure])
  | `(tactic| rp [$ls,*]) => do
    let alts ← ls.getElems.mapM fun l => `(tacticSeq| with_reducible exact $l)
    `(tactic| repeat' (first
      | with_reducible exact rp_pure | with_reducible exact rp_get
      | with_reducible exact rp_usage | with_reducible exact rp_internal
      | with_reducible exact rp_writeBytes
      | with_reducible refine rp_ite ?_ ?_
      | with_reducible refine Rp.bind ?_ fun _ => ?_
      | (first $[| $alts]*)
      | assumption
      | (exact rp_modify)))

theorem rp_slice {bytes : Bytes} {i j : Nat} : Rp (slice bytes i j) := by unfold slice; rp
theorem rp_csub {i j : Nat} : Rp (csub i j) := by unfold csub; rp
theorem rp_toHex {i : Nat} : Rp (toHex i) := by unfold toHex; rp
theorem rp_getUnicodeEscape {i : Nat} : Rp (getUnicodeEscape i) := by unfold getUnicodeEscape; rp [rp_toHex]

theorem rp_writeEscapedChar {c : Char} : Rp (writeEscapedChar c) := by
  unfold writeEscapedChar
  cases twoCharEscape c with
  | some => exact rp_writeBytes
  | none => dsimp only; rp [rp_csub, rp_getUnicodeEscape]

theorem rp_pieceLoop {bytes : Bytes} {cs : Text} {i n : Nat} : Rp (pieceLoop bytes cs i n) := by
  induction cs generalizing i n with
  | nil => exact rp_pure
  | cons c cs ih => unfold pieceLoop; rp [ih, rp_slice, rp_writeEscapedChar]

theorem rp_writeStringValuePiece {t : Text} : Rp (writeStringValuePiece t) := by
  unfold writeStringValuePiece
  rp [rp_slice, rp_pieceLoop]

theorem rp_writeStringValue {t : Text} : Rp (writeStringValue t) := by
  unfold writeStringValue
  rp [rp_writeStringValuePiece]

theorem rp_writeIndentationLoop {n : Nat} : Rp (writeIndentationLoop n) := by
  induction n with
  | zero => exact rp_pure
  | succ n ih => unfold writeIndentationLoop; rp [ih]

theorem rp_writeIndentation : Rp writeIndentation := by unfold writeIndentation; rp [rp_writeIndentationLoop]

theorem rp_beforeContainerElement : Rp beforeContainerElement := by
  unfold beforeContainerElement increaseIndentation; rp [rp_writeIndentation]

theorem rp_beforeValueSeparator : Rp beforeValueSeparator := by
  unfold beforeValueSeparator
  refine rp_get.bind fun c => ?_
  cases c.settings.separator <;> dsimp only <;> rp [rp_beforeContainerElement]

theorem rp_beforeValue : Rp beforeValue := by
  unfold beforeValue
  rp [rp_beforeValueSeparator]

theorem rp_onContainerEnd : Rp onContainerEnd := by
  unfold onContainerEnd decreaseIndentation; rp [rp_writeIndentation, rp_csub]

theorem rp_numberText {s : Text} : Rp (do beforeValue; T.writeBytes (enc s) : W Unit) := by rp [rp_beforeValue]

/-! ## The string value writer -/

theorem rp_decodeUtf8Char {bs : Bytes} : Rp (decodeUtf8Char bs) := by
  unfold decodeUtf8Char
  cases decodeUtf8 bs <;> dsimp only <;> rp [rp_fail rfl]

theorem rp_fromUtf8 {bs : Bytes} : Rp (fromUtf8 bs) := by
  unfold fromUtf8
  cases decodeUtf8 bs <;> dsimp only <;> rp [rp_fail rfl]

theorem rp_setUtf8Buf {n : Nat} {bs : Bytes} : Rp (setUtf8Buf n bs) := by unfold setUtf8Buf; rp
theorem rp_setUtf8Pos {n : Nat} : Rp (setUtf8Pos n) := by unfold setUtf8Pos; rp
theorem rp_maxOrOffsetNegative {a b n : Nat} : Rp (maxOrOffsetNegative a b n) := by unfold maxOrOffsetNegative; rp [rp_csub]
theorem rp_expectedBytesCount {b : UInt8} : Rp (expectedBytesCount b) := by
  unfold expectedBytesCount; rp [rp_fail rfl]

theorem rp_completeChar {buf : Bytes} : Rp (completeChar buf) := by
  unfold completeChar
  rp [rp_csub, rp_slice, rp_setUtf8Buf, rp_setUtf8Pos, rp_decodeUtf8Char, rp_writeStringValuePiece]

theorem rp_writeImplLoop {buf : Bytes} {startPos fuel i : Nat} :
    Rp (writeImplLoop buf startPos fuel i) := by
  induction fuel generalizing i with
  | zero => exact rp_internal
  | succ fuel ih =>
    unfold writeImplLoop
    split
    · dsimp only
      refine rp_ite ih ((rp_expectedBytesCount).bind fun r => ?_)
      cases r <;> dsimp only <;> rp [ih, rp_slice, rp_fromUtf8, rp_writeStringValuePiece, rp_setUtf8Buf, rp_setUtf8Pos]
    · rp [rp_slice, rp_fromUtf8, rp_writeStringValuePiece]

theorem rp_writeImpl {buf : Bytes} : Rp (writeImpl buf) := by
  unfold writeImpl
  rp [rp_completeChar, rp_maxOrOffsetNegative, rp_writeImplLoop]

theorem rp_checkPreviousError : Rp checkPreviousError := by
  unfold checkPreviousError
  refine rp_get.bind fun c => ?_
  cases c.sv.error with
  | none => exact rp_pure
  | some e => exact rp_fail rfl

theorem attempt_tr {m : W α} {Q : List WErr → Except WErr (Except WErr α) × Core → Prop} {c : Core} {acc : List WErr} (h : Rp m)
    (hQ : ∀ r c', Q (acc ++ ioError r) (.ok r, c')) : ((T.attempt m).run c).Tr Q acc :=
  (h c acc).bind fun acc' r hr => by subst hr; exact hQ r.1 r.2

theorem rp_runWithErrorTracking {f : W α} (h : Rp f) : Rp (runWithErrorTracking f) := by
  unfold runWithErrorTracking
  refine rp_checkPreviousError.bind fun _ => ?_
  intro c acc
  rw [T.run_bind]
  refine (attempt_tr (Q := fun acc' r => ∃ r' c', r = (.ok r', c') ∧ acc' = acc ++ ioError r') h fun r c' => ⟨r, c', rfl, rfl⟩).bind ?_
  rintro _ _ ⟨r', c', rfl, rfl⟩
  cases r' with
  | ok a => rfl
  | error e => rfl

theorem rp_svOp {o : SvOp} : Rp (svOp o) := by
  cases o with
  | write bs => exact rp_runWithErrorTracking rp_writeImpl
  | writeStr t =>
    refine (rp_runWithErrorTracking ?_).bind fun _ => rp_pure
    refine rp_get.bind fun c => rp_ite (rp_fail rfl) rp_writeStringValuePiece
  | flush => exact (rp_runWithErrorTracking rp_flush).bind fun _ => rp_pure

theorem svOps_failures {os : List SvOp} {c : Core} {acc : List WErr} :
    ((svOps os).run c).Tr (fun acc' r => ∃ rs, r.1 = .ok rs ∧ acc' = acc ++ rs.flatMap ioError) acc := by
  induction os generalizing c acc with
  | nil => exact ⟨[], rfl, (List.append_nil acc).symm⟩
  | cons o os ih =>
    unfold svOps
    rw [T.run_bind]
    refine (attempt_tr (Q := fun acc' r => ∃ r' c', r = (.ok r', c') ∧ acc' = acc ++ ioError r') rp_svOp fun r c' => ⟨r, c', rfl, rfl⟩).bind ?_
    rintro _ _ ⟨r', c', rfl, rfl⟩
    show ((svOps os >>= fun rs => pure (r' :: rs)).run c').Tr _ _
    rw [T.run_bind]
    refine ih.bind ?_
    rintro _ ⟨_, c''⟩ ⟨rs, rfl, rfl⟩
    exact ⟨_, rfl, by rw [List.flatMap_cons, List.append_assoc]⟩

/-! ## Calls -/

theorem unit_failures {m : W Unit} {c : Core} {acc : List WErr} (h : Rp m) :
    ((do m; pure .unit : W WOut).run c).Tr (fun acc' r => acc' = acc ++ ioErrors r.1) acc := by
  rw [T.run_bind]
  refine (h c acc).bind fun acc' r hr => ?_
  obtain ⟨r, c'⟩ := r
  subst hr
  cases r with
  | ok a => rfl
  | error e => exact congrArg (acc ++ ·) (ioError_error e)

theorem wop_failures {op : WOp} {c : Core} {acc : List WErr} : ((wop op).run c).Tr (fun acc' r => acc' = acc ++ ioErrors r.1) acc := by
  cases op with
  | beginObject => exact unit_failures (by unfold beginObject; rp [rp_beforeValue])
  | name n => exact unit_failures (by unfold name; rp [rp_beforeContainerElement, rp_writeStringValue])
  | endObject => exact unit_failures (by unfold endObject; rp [rp_onContainerEnd])
  | beginArray => exact unit_failures (by unfold beginArray; rp [rp_beforeValue])
  | endArray => exact unit_failures (by unfold endArray; rp [rp_onContainerEnd])
  | stringValue t => exact unit_failures (by unfold stringValue; rp [rp_beforeValue, rp_writeStringValue])
  | boolValue b => exact unit_failures (by unfold boolValue; rp [rp_beforeValue])
  | nullValue => exact unit_failures (by unfold nullValue; rp [rp_beforeValue])
  | numberValue n =>
    refine unit_failures ?_
    unfold numberValue FinNum.useJsonNumber
    cases n with
    | int => exact rp_ite rp_numberText rp_internal
    | transferred => exact rp_numberText
  | fpNumberValue n => exact unit_failures (rp_ite (rp_ite rp_numberText rp_internal) (rp_fail rfl))
  | numberValueFromString t => exact unit_failures (rp_ite rp_numberText (rp_fail rfl))
  | finishDocument => exact unit_failures (by unfold finishDocument; rp [rp_flush])
  | stringValueWriter ops finish =>
    show ((stringValueWriter >>= fun _ => svOps ops >>= fun rs => if finish then do
        let r ← T.attempt svFinishValue
        pure (.string rs (some r))
      else pure (.string rs none) : W WOut).run c).Tr _ _
    rw [T.run_bind]
    have hs : Rp stringValueWriter := by unfold stringValueWriter; rp [rp_beforeValue]
    have hf : Rp svFinishValue := by unfold svFinishValue; rp [rp_checkPreviousError, rp_fail rfl]
    refine (hs c acc).bind fun acc' r hr => ?_
    obtain ⟨r, c'⟩ := r
    subst hr
    cases r with
    | error e => exact congrArg (acc ++ ·) (ioError_error e)
    | ok a =>
      show ((svOps ops >>= _).run c').Tr _ (acc ++ [])
      rw [List.append_nil, T.run_bind]
      refine svOps_failures.bind ?_
      rintro _ ⟨_, c''⟩ ⟨rs, rfl, rfl⟩
      cases finish with
      | false => exact congrArg (acc ++ ·) (List.append_nil _).symm
      | true =>
        show ((T.attempt svFinishValue >>= fun r => pure (.string rs (some r)) : W WOut).run c'').Tr _ _
        rw [T.run_bind]
        refine (attempt_tr (Q := fun acc' r => ∃ r' c', r = (.ok r', c') ∧ acc' = acc ++ rs.flatMap ioError ++ ioError r') hf fun r c' => ⟨r, c', rfl, rfl⟩).bind ?_
        rintro _ _ ⟨r', c', rfl, rfl⟩
        exact List.append_assoc _ _ _

theorem wopsAll_failures {ops : List WOp} {c : Core} {acc : List WErr} :
    ((wopsAll ops).run c).Tr (fun acc' r => ∃ rs, r.1 = .ok rs ∧ acc' = acc ++ rs.flatMap ioErrors) acc := by
  induction ops generalizing c acc with
  | nil => exact ⟨[], rfl, (List.append_nil acc).symm⟩
  | cons op ops ih =>
    unfold wopsAll
    refine wop_failures.bind fun acc' r hr => ?_
    obtain ⟨r, c'⟩ := r
    subst hr
    dsimp only
    split
    · exact ⟨[r], rfl, by rw [List.flatMap_cons, List.flatMap_nil, List.append_nil]⟩
    · refine ih.bind ?_
      rintro _ ⟨_, c''⟩ ⟨rs, rfl, rfl⟩
      exact ⟨_, rfl, by rw [List.flatMap_cons, List.append_assoc]⟩

theorem wops_failures {ops : List WOp} {c : Core} {acc : List WErr} :
    ((wops ops).run c).Tr (fun acc' r => ∃ rs, r.1 = .ok rs ∧ acc' = acc ++ rs.flatMap ioErrors) acc := by
  induction ops generalizing c acc with
  | nil => exact ⟨[], rfl, (List.append_nil acc).symm⟩
  | cons op ops ih =>
    unfold wops
    refine wop_failures.bind fun acc' r hr => ?_
    obtain ⟨r, c'⟩ := r
    subst hr
    cases r with
    | ok x =>
      dsimp only
      split
      · exact ⟨[.ok x], rfl, by rw [List.flatMap_cons, List.flatMap_nil, List.append_nil]⟩
      · refine ih.bind ?_
        rintro _ ⟨_, c''⟩ ⟨rs, rfl, rfl⟩
        exact ⟨_, rfl, by rw [List.flatMap_cons, List.append_assoc]⟩
    | error e =>
      dsimp only
      split
      · refine ih.bind ?_
        rintro _ ⟨_, c''⟩ ⟨rs, rfl, rfl⟩
        exact ⟨_, rfl, by rw [List.flatMap_cons, List.append_assoc]⟩
      · exact ⟨[.error e], rfl, by rw [List.flatMap_cons, List.flatMap_nil, List.append_nil]⟩

theorem execAll_failures {N : Nat} {st : WSettings} {sink sink' : Sink} {ops : List WOp} {rs : List (Except WErr WOut)}
    (h : execAll N st sink ops = (.ok rs, sink')) : FailedWith sink sink' (rs.flatMap ioErrors) := by
  unfold execAll at h
  generalize hr : ((wopsAll ops).run (Core.new st)).run.run (BufSink.new N sink) = r at h
  match r, h, hr with
  | .ok (.ok rs', _) _, h, hr =>
    cases h
    obtain ⟨errs, h1, _, h2, h3⟩ := (wopsAll_failures (acc := [])).run hr
    cases h2
    rw [← List.nil_append (rs.flatMap ioErrors), ← h3]
    exact h1
  | .ok (.error e, _) _, _, _ => exact nomatch e
  | .err p _, h, _ => cases h

theorem execW_failures {N : Nat} {st : WSettings} {sink sink' : Sink} {ops : List WOp} {rs : List (Except WErr WOut)}
    (h : execW N st sink ops = (.ok rs, sink')) : FailedWith sink sink' (rs.flatMap ioErrors) := by
  unfold execW at h
  generalize hr : ((wops ops).run (Core.new st)).run.run (BufSink.new N sink) = r at h
  match r, h, hr with
  | .ok (.ok rs', _) _, h, hr =>
    cases h
    obtain ⟨errs, h1, _, h2, h3⟩ := (wops_failures (acc := [])).run hr
    cases h2
    rw [← List.nil_append (rs.flatMap ioErrors), ← h3]
    exact h1
  | .ok (.error e, _) _, _, _ => exact nomatch e
  | .err p _, h, _ => cases h

end Verif.Writer
