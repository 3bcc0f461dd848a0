import Verif.Proofs.Writer.Ops
import Verif.Spec.WriterErrors
/-!
# The reasons for errors of the writer

Every error which is reported by the writer comes from the underlying `Write`, or is one of the errors which the called method is allowed to report itself.
-/

namespace Verif.Writer
open Utf8 WReason

variable {α β : Type} {Wr Fl O : WErr → Prop}

/-- All results satisfy `P`, provided that `write_bytes` only fails with errors which satisfy `Wr`, and `flush` with errors which satisfy `Wr` or `Fl` -/
def Tree.Rs (Wr Fl : WErr → Prop) (P : β → Prop) : Tree β → Prop
  | .ret b => P b
  | .panic _ => True
  | .emit _ k => (k (.ok ())).Rs Wr Fl P ∧ ∀ e, Wr e → (k (.error e)).Rs Wr Fl P
  | .flush k => (k (.ok ())).Rs Wr Fl P ∧ ∀ e, Wr e ∨ Fl e → (k (.error e)).Rs Wr Fl P

theorem Tree.Rs.mono {P Q : β → Prop} {t : Tree β} (h : t.Rs Wr Fl P) (hQ : ∀ b, P b → Q b) : t.Rs Wr Fl Q := by
  induction t with
  | ret b => exact hQ _ h
  | panic => trivial
  | emit bs k ih => exact ⟨ih _ h.1, fun e he => ih _ (h.2 e he)⟩
  | flush k ih => exact ⟨ih _ h.1, fun e he => ih _ (h.2 e he)⟩

theorem Tree.Rs.bind {P : α → Prop} {Q : β → Prop} {t : Tree α} {f : α → Tree β} (h : t.Rs Wr Fl P) (hf : ∀ a, P a → (f a).Rs Wr Fl Q) :
    (t.bind f).Rs Wr Fl Q := by
  induction t with
  | ret b => exact hf _ h
  | panic => trivial
  | emit bs k ih => exact ⟨ih _ h.1, fun e he => ih _ (h.2 e he)⟩
  | flush k ih => exact ⟨ih _ h.1, fun e he => ih _ (h.2 e he)⟩

/-! ## The underlying `Write` -/

/-- All what the underlying `Write` still returns is part of what it returns in `sink` -/
def Within (sink : Sink) (k : Sink) : Prop := (∀ x ∈ k.writes, x ∈ sink.writes) ∧ ∀ x ∈ k.flushes, x ∈ sink.flushes

theorem writeAll_within {data received : Bytes} {es es' : List WriteEvent} {r : Except WErr Unit} {rec' : Bytes}
    (h : writeAll data received es = (r, rec', es')) : (∀ x ∈ es', x ∈ es) ∧ ∀ e, r = .error e →
      (∃ c, e = .io c ∧ WriteEvent.error c ∈ es) ∨ (e = .writeZero ∧ WriteEvent.accept 0 ∈ es) := by
  induction es generalizing data received with
  | nil => simp only [writeAll, Prod.mk.injEq] at h; obtain ⟨rfl, _, rfl⟩ := h; exact ⟨fun _ h => h, nofun⟩
  | cons e es ih =>
    unfold writeAll at h
    have up : ∀ {data received}, writeAll data received es = (r, rec', es') → (∀ x ∈ es', x ∈ e :: es) ∧ ∀ e', r = .error e' →
        (∃ c, e' = .io c ∧ WriteEvent.error c ∈ e :: es) ∨ (e' = .writeZero ∧ WriteEvent.accept 0 ∈ e :: es) := fun h =>
      ⟨fun x hx => List.mem_cons_of_mem _ ((ih h).1 x hx), fun e' he => ((ih h).2 e' he).imp
        (fun ⟨c, h1, h2⟩ => ⟨c, h1, List.mem_cons_of_mem _ h2⟩) fun ⟨h1, h2⟩ => ⟨h1, List.mem_cons_of_mem _ h2⟩⟩
    split at h
    · cases h; exact ⟨fun _ h => h, nofun⟩
    · cases e with
      | interrupted => exact up h
      | error c => cases h; exact ⟨fun x hx => List.mem_cons_of_mem _ hx, fun e' he => by cases he; exact .inl ⟨c, rfl, List.mem_cons_self⟩⟩
      | accept n =>
        dsimp only at h
        split at h
        · rename_i hn
          cases h
          exact ⟨fun x hx => List.mem_cons_of_mem _ hx, fun e' he => by cases he; subst hn; exact .inr ⟨rfl, List.mem_cons_self⟩⟩
        · exact up h

/-- The result of `write_bytes` or `flush`: its errors satisfy `P` -/
def EndsIn (sink : Sink) (P : WErr → Prop) (r : Res SinkErr BufSink Unit) : Prop := match r with
  | .ok _ k => Within sink k.sink
  | .err (.err e) k => Within sink k.sink ∧ P e
  | .err (.panic _) _ => True

theorem sinkWriteAll_ends {sink : Sink} {data : Bytes} {k : BufSink} (hk : Within sink k.sink) :
    EndsIn sink (FromWrite sink) ((sinkWriteAll data).run k) := by
  show EndsIn sink _ (match k.sink.writeAll data with
    | (.ok (), s) => .ok () { k with sink := s }
    | (.error e, s) => .err (.err e) { k with sink := s })
  simp only [Sink.writeAll]
  generalize hw : Writer.writeAll data k.sink.received k.sink.writes = r
  obtain ⟨r, rec', es⟩ := r
  obtain ⟨h1, h2⟩ := writeAll_within hw
  have hin : Within sink { k.sink with received := rec', writes := es } := ⟨fun x hx => hk.1 x (h1 x hx), hk.2⟩
  cases r with
  | ok => exact hin
  | error e => exact ⟨hin, (h2 e rfl).imp (fun ⟨c, h, h'⟩ => ⟨c, h, hk.1 _ h'⟩) fun ⟨h, h'⟩ => ⟨h, hk.1 _ h'⟩⟩

theorem sinkFlush_ends {sink : Sink} {k : BufSink} (hk : Within sink k.sink) :
    EndsIn sink (FromFlush sink) (sinkFlush.run k) := by
  show EndsIn sink _ (match k.sink.flush with
    | (.ok (), s) => .ok () { k with sink := s }
    | (.error e, s) => .err (.err e) { k with sink := s })
  unfold Sink.flush
  split
  · rename_i h
    split at h
    · cases h; exact hk
    · rename_i hf; cases h; exact ⟨hk.1, fun x hx => hk.2 x (by rw [hf]; exact List.mem_cons_of_mem _ hx)⟩
    · cases h
  · rename_i h
    split at h
    · cases h
    · cases h
    · rename_i hf
      cases h
      exact ⟨⟨hk.1, fun x hx => hk.2 x (by rw [hf]; exact List.mem_cons_of_mem _ hx)⟩, _, rfl, hk.2 _ (by rw [hf]; exact List.mem_cons_self)⟩

theorem EndsIn.bind {sink : Sink} {P Q : WErr → Prop} {m : M SinkErr BufSink Unit} {f : Unit → M SinkErr BufSink Unit} {k : BufSink}
    (h : EndsIn sink P (m.run k)) (hPQ : ∀ e, P e → Q e) (hf : ∀ k, Within sink k.sink → EndsIn sink Q ((f ()).run k)) :
    EndsIn sink Q ((m >>= f).run k) := by
  generalize hr : m.run k = r at h
  match r, h, hr with
  | .ok _ k', h, hr => rw [M.bind_ok hr]; exact hf k' h
  | .err (.err e) k', h, hr => rw [M.bind_err hr]; exact ⟨h.1, hPQ e h.2⟩
  | .err (.panic p) k', _, hr => rw [M.bind_err hr]; trivial

theorem writeBytesLoop_ends {sink : Sink} {fuel : Nat} {bytes : Bytes} {k : BufSink} (hk : Within sink k.sink) :
    EndsIn sink (FromWrite sink) ((writeBytesLoop fuel bytes).run k) := by
  induction fuel generalizing bytes k with
  | zero => trivial
  | succ fuel ih =>
    unfold writeBytesLoop
    by_cases he : bytes.isEmpty = true
    · rw [if_pos he]; exact hk
    · rw [if_neg he]
      rw [M.bind_ok (M.run_get _)]
      dsimp only
      rw [M.bind_ok (M.run_modify _ _), M.bind_ok (M.run_get _)]
      dsimp only
      split
      · refine EndsIn.bind (sinkWriteAll_ends (by exact hk)) (fun _ h => h) fun k' hk' => ?_
        rw [M.bind_ok (M.run_modify _ _)]
        exact ih hk'
      · exact ih hk

theorem writeBytes_ends {sink : Sink} {bytes : Bytes} {k : BufSink} (hk : Within sink k.sink) :
    EndsIn sink (FromWrite sink) ((writeBytes bytes).run k) := writeBytesLoop_ends hk

theorem flush_ends {sink : Sink} {k : BufSink} (hk : Within sink k.sink) :
    EndsIn sink (fun e => FromWrite sink e ∨ FromFlush sink e) (flush.run k) := by
  show EndsIn sink _ ((sinkWriteAll (k.buf.take k.pos) >>= fun _ => M.modify (fun k => { k with pos := 0 }) >>= fun _ => sinkFlush).run k)
  refine (sinkWriteAll_ends hk).bind (fun _ h => .inl h) fun k' hk' => ?_
  have := sinkFlush_ends (k := { k' with pos := 0 }) hk'
  show EndsIn sink _ (sinkFlush.run { k' with pos := 0 })
  generalize sinkFlush.run { k' with pos := 0 } = r at this
  match r, this with
  | .ok _ _, h => exact h
  | .err (.err e) _, h => exact ⟨h.1, .inr h.2⟩
  | .err (.panic p) _, _ => trivial

theorem Tree.Rs.run {sink : Sink} {P : β → Prop} {t : Tree β} (h : t.Rs (FromWrite sink) (FromFlush sink) P) {k k' : BufSink} {b : β}
    (hk : Within sink k.sink) (hr : t.run.run k = .ok b k') : P b := by
  induction t generalizing k with
  | ret b' => cases hr; exact h
  | panic => cases hr
  | emit bs f ih =>
    have hw := writeBytes_ends (bytes := bs) hk
    unfold Tree.run at hr
    dsimp only at hr
    generalize (writeBytes bs).run k = r at hw hr
    match r, hw, hr with
    | .ok _ k', hw, hr => exact ih _ h.1 hw hr
    | .err (.err e) k', hw, hr => exact ih _ (h.2 e hw.2) hw.1 hr
    | .err (.panic p) k', hw, hr => cases hr
  | flush f ih =>
    have hw := flush_ends hk
    unfold Tree.run at hr
    dsimp only at hr
    generalize Writer.flush.run k = r at hw hr
    match r, hw, hr with
    | .ok _ k', hw, hr => exact ih _ h.1 hw hr
    | .err (.err e) k', hw, hr => exact ih _ (h.2 e hw.2) hw.1 hr
    | .err (.panic p) k', hw, hr => cases hr

theorem attempt_rs {σ : Type} {P : Except WErr α × σ → Prop} {Q : Except WErr (Except WErr α) × σ → Prop} {m : T WErr σ α} {c : σ} (h : (m.run c).Rs Wr Fl P)
    (hQ : ∀ r, P r → Q (.ok r.1, r.2)) : ((T.attempt m).run c).Rs Wr Fl Q := h.bind fun r hr => hQ r hr

/-! ## The methods -/

/-- The method only reports errors which satisfy `O`, and does not change the remembered error of the string value writer -/
def Pl (Wr Fl O : WErr → Prop) (m : W α) : Prop := ∀ c, (m.run c).Rs Wr Fl fun r => (∀ e, r.1 = .error e → O e) ∧ r.2.sv.error = c.sv.error

theorem Pl.bind {m : W α} {f : α → W β} (h : Pl Wr Fl O m) (hf : ∀ a, Pl Wr Fl O (f a)) : Pl Wr Fl O (m >>= f) := by
  intro c
  rw [T.run_bind]
  refine (h c).bind fun r hr => ?_
  obtain ⟨r, c'⟩ := r
  cases r with
  | ok a => exact (hf a c').mono fun _ h => ⟨h.1, h.2.trans hr.2⟩
  | error e => exact ⟨fun e' he => by cases he; exact hr.1 e rfl, hr.2⟩

theorem Pl.mono {O' : WErr → Prop} {m : W α} (h : Pl Wr Fl O m) (hO : ∀ e, O e → O' e) : Pl Wr Fl O' m :=
  fun c => (h c).mono fun _ h => ⟨fun e he => hO e (h.1 e he), h.2⟩

theorem pl_pure {a : α} : Pl Wr Fl O (pure a : W α) := fun _ => ⟨nofun, rfl⟩
theorem pl_get : Pl Wr Fl O (T.get : W Core) := fun _ => ⟨nofun, rfl⟩
theorem pl_modify {g : Core → Core} (h : ∀ c, (g c).sv.error = c.sv.error) : Pl Wr Fl O (T.modify g : W Unit) := fun c => ⟨nofun, h c⟩
theorem pl_fail {e : WErr} (h : O e) : Pl Wr Fl O (T.fail e : W α) := fun _ => ⟨fun _ he => by cases he; exact h, rfl⟩
theorem pl_usage {u : WUsage} : Pl Wr Fl O (T.usage u : W α) := fun _ => trivial
theorem pl_internal {u : WInternal} : Pl Wr Fl O (T.internal u : W α) := fun _ => trivial
theorem pl_writeBytes {bs : Bytes} (h : ∀ e, Wr e → O e) : Pl Wr Fl O (T.writeBytes bs : W Unit) :=
  fun _ => ⟨⟨nofun, rfl⟩, fun e he => ⟨fun _ h' => by cases h'; exact h e he, rfl⟩⟩
theorem pl_flush (h : ∀ e, Wr e ∨ Fl e → O e) : Pl Wr Fl O (T.flush : W Unit) :=
  fun _ => ⟨⟨nofun, rfl⟩, fun e he => ⟨fun _ h' => by cases h'; exact h e he, rfl⟩⟩
theorem pl_ite {p : Prop} [Decidable p] {m m' : W α} (h : Pl Wr Fl O m) (h' : Pl Wr Fl O m') : Pl Wr Fl O (if p then m else m') := by
  split <;> assumption

/-- proves `Pl` for straight line code, with lemmas for the called methods -/
syntax "pl" ("[" term,* "]")? : tactic
macro_rules
  | `(tactic| pl) => `(tactic| pl [pl_pure])
  | `(tactic| pl [$ls,*]) => do
    let alts ← ls.getElems.mapM fun l => `(tacticSeq| with_reducible exact $l)
    `(tactic| repeat' (first
      | with_reducible exact pl_pure | with_reducible exact pl_get
      | with_reducible exact pl_usage | with_reducible exact pl_internal
      | with_reducible exact pl_writeBytes (by assumption)
      | with_reducible refine pl_ite ?_ ?_
      | with_reducible refine Pl.bind ?_ fun _ => ?_
      | (first $[| $alts]*)
      | assumption
      | (refine pl_modify ?_; exact fun _ => rfl)))

theorem pl_slice {bytes : Bytes} {i j : Nat} : Pl Wr Fl O (slice bytes i j) := by unfold slice; pl
theorem pl_csub {i j : Nat} : Pl Wr Fl O (csub i j) := by unfold csub; pl
theorem pl_toHex {i : Nat} : Pl Wr Fl O (toHex i) := by unfold toHex; pl
theorem pl_getUnicodeEscape {i : Nat} : Pl Wr Fl O (getUnicodeEscape i) := by unfold getUnicodeEscape; pl [pl_toHex]

section
variable (h : ∀ e, Wr e → O e)
include h

theorem pl_writeEscapedChar {c : Char} : Pl Wr Fl O (writeEscapedChar c) := by
  unfold writeEscapedChar
  cases twoCharEscape c with
  | some => exact pl_writeBytes h
  | none => dsimp only; pl [pl_csub, pl_getUnicodeEscape]

theorem pl_pieceLoop {bytes : Bytes} {cs : Text} {i n : Nat} : Pl Wr Fl O (pieceLoop bytes cs i n) := by
  induction cs generalizing i n with
  | nil => exact pl_pure
  | cons c cs ih => unfold pieceLoop; pl [ih, pl_slice, pl_writeEscapedChar h]

theorem pl_writeStringValuePiece {t : Text} : Pl Wr Fl O (writeStringValuePiece t) := by
  unfold writeStringValuePiece
  pl [pl_slice, pl_pieceLoop h]

theorem pl_writeStringValue {t : Text} : Pl Wr Fl O (writeStringValue t) := by
  unfold writeStringValue
  pl [pl_writeStringValuePiece h]

theorem pl_writeIndentationLoop {n : Nat} : Pl Wr Fl O (writeIndentationLoop n) := by
  induction n with
  | zero => exact pl_pure
  | succ n ih => unfold writeIndentationLoop; pl [ih]

theorem pl_writeIndentation : Pl Wr Fl O writeIndentation := by unfold writeIndentation; pl [pl_writeIndentationLoop h]

theorem pl_beforeContainerElement : Pl Wr Fl O beforeContainerElement := by
  unfold beforeContainerElement increaseIndentation; pl [pl_writeIndentation h]

theorem pl_beforeValueSeparator : Pl Wr Fl O beforeValueSeparator := by
  unfold beforeValueSeparator
  refine pl_get.bind fun c => ?_
  cases c.settings.separator <;> dsimp only <;> pl [pl_beforeContainerElement h]

theorem pl_beforeValue : Pl Wr Fl O beforeValue := by
  unfold beforeValue
  pl [pl_beforeValueSeparator h]
  refine pl_modify fun c => ?_
  split <;> rfl

theorem pl_onContainerEnd : Pl Wr Fl O onContainerEnd := by
  unfold onContainerEnd decreaseIndentation; pl [pl_writeIndentation h, pl_csub]

theorem pl_numberText {s : Text} : Pl Wr Fl O (do beforeValue; T.writeBytes (enc s) : W Unit) := by pl [pl_beforeValue h]

end

/-! ## The string value writer -/

theorem pl_decodeUtf8Char {bs : Bytes} (h : O .invalidUtf8) : Pl Wr Fl O (decodeUtf8Char bs) := by
  unfold decodeUtf8Char
  cases decodeUtf8 bs <;> dsimp only <;> pl [pl_fail h]

theorem pl_fromUtf8 {bs : Bytes} (h : O .invalidUtf8) : Pl Wr Fl O (fromUtf8 bs) := by
  unfold fromUtf8
  cases decodeUtf8 bs <;> dsimp only <;> pl [pl_fail h]

theorem pl_setUtf8Buf {n : Nat} {bs : Bytes} : Pl Wr Fl O (setUtf8Buf n bs) := by unfold setUtf8Buf; pl
theorem pl_setUtf8Pos {n : Nat} : Pl Wr Fl O (setUtf8Pos n) := by unfold setUtf8Pos; pl
theorem pl_maxOrOffsetNegative {a b n : Nat} : Pl Wr Fl O (maxOrOffsetNegative a b n) := by unfold maxOrOffsetNegative; pl [pl_csub]
theorem pl_expectedBytesCount {b : UInt8} (h : O .invalidUtf8) : Pl Wr Fl O (expectedBytesCount b) := by
  unfold expectedBytesCount; pl [pl_fail h]

theorem pl_completeChar {buf : Bytes} (h : ∀ e, Wr e → O e) (hu : O .invalidUtf8) : Pl Wr Fl O (completeChar buf) := by
  unfold completeChar
  pl [pl_csub, pl_slice, pl_setUtf8Buf, pl_setUtf8Pos, pl_decodeUtf8Char hu, pl_writeStringValuePiece h]

theorem pl_writeImplLoop {buf : Bytes} {startPos fuel i : Nat} (h : ∀ e, Wr e → O e) (hu : O .invalidUtf8) :
    Pl Wr Fl O (writeImplLoop buf startPos fuel i) := by
  induction fuel generalizing i with
  | zero => exact pl_internal
  | succ fuel ih =>
    unfold writeImplLoop
    split
    · dsimp only
      refine pl_ite ih ((pl_expectedBytesCount hu).bind fun r => ?_)
      cases r <;> dsimp only <;> pl [ih, pl_slice, pl_fromUtf8 hu, pl_writeStringValuePiece h, pl_setUtf8Buf, pl_setUtf8Pos]
    · pl [pl_slice, pl_fromUtf8 hu, pl_writeStringValuePiece h]

theorem pl_writeImpl {buf : Bytes} (h : ∀ e, Wr e → O e) (hu : O .invalidUtf8) : Pl Wr Fl O (writeImpl buf) := by
  unfold writeImpl
  pl [pl_completeChar h hu, pl_maxOrOffsetNegative, pl_writeImplLoop h hu]

/-- The remembered error of the string value writer is one of the reported errors -/
def Remembers (earlier : List WErr) (c : Core) : Prop := ∀ e, c.sv.error = some e → e ∈ earlier

/-- A method of the string value writer reports errors which satisfy `O` or that there has been an error before, and remembers the error -/
def Tracks (Wr Fl O : WErr → Prop) (m : W α) : Prop := ∀ c earlier, Remembers earlier c → (m.run c).Rs Wr Fl fun r =>
  (∀ a, r.1 = .ok a → Remembers earlier r.2) ∧ ∀ e, r.1 = .error e → (O e ∨ ∃ e' ∈ earlier, e = .previous e') ∧ Remembers (e :: earlier) r.2

theorem tracks {f : W α} (h : Pl Wr Fl O f) : Tracks Wr Fl O (runWithErrorTracking f) := by
  intro c earlier hc
  unfold runWithErrorTracking checkPreviousError
  rw [T.run_bind, T.run_bind]
  show ((Tree.bind ((match c.sv.error with | none => pure () | some e => T.fail (.previous e) : W Unit).run c) _).Rs Wr Fl _)
  cases he : c.sv.error with
  | some e =>
    refine ⟨nofun, fun e' h' => ?_⟩
    cases h'
    exact ⟨.inr ⟨e, hc e he, rfl⟩, fun x hx => List.mem_cons_of_mem _ (hc x hx)⟩
  | none =>
    show ((T.attempt f >>= _).run c).Rs Wr Fl _
    rw [T.run_bind]
    refine Tree.Rs.bind (P := fun r => ∃ r', r.1 = .ok r' ∧ (∀ e, r' = .error e → O e) ∧ r.2.sv.error = none) (attempt_rs (h c) fun r hr => ?_) ?_
    · exact ⟨r.1, rfl, hr.1, hr.2.trans he⟩
    · rintro ⟨_, c'⟩ ⟨r', rfl, h1, h2⟩
      cases r' with
      | ok a => exact ⟨fun _ _ x hx => absurd (h2.symm.trans hx) nofun, nofun⟩
      | error e =>
        refine ⟨nofun, fun e' h' => ?_⟩
        cases h'
        refine ⟨.inl (h1 e rfl), fun x hx => ?_⟩
        cases hx
        exact List.mem_cons_self

theorem Tracks.map {m : W α} {b : β} (h : Tracks Wr Fl O m) : Tracks Wr Fl O (do let _ ← m; pure b : W β) := by
  intro c earlier hc
  rw [T.run_bind]
  refine (h c earlier hc).bind fun r hr => ?_
  obtain ⟨r, c'⟩ := r
  cases r with
  | ok a => exact ⟨fun _ _ => hr.1 a rfl, nofun⟩
  | error e => exact ⟨nofun, fun e' h' => by cases h'; exact hr.2 e rfl⟩

/-- The errors which a method of the string value writer reports itself -/
def SvOwn (sink : Sink) (o : SvOp) (e : WErr) : Prop :=
  FromWrite sink e ∨ (o = .flush ∧ FromFlush sink e) ∨ ((∃ bs, o = .write bs) ∧ e = .invalidUtf8) ∨ ((∃ t, o = .writeStr t) ∧ e = .incompleteUtf8)

theorem svOp_tracks {sink : Sink} {o : SvOp} : Tracks (FromWrite sink) (FromFlush sink) (SvOwn sink o) (svOp o) := by
  cases o with
  | write bs => exact tracks (pl_writeImpl (fun _ h => .inl h) (.inr (.inr (.inl ⟨⟨_, rfl⟩, rfl⟩))))
  | writeStr t =>
    refine Tracks.map (tracks ?_)
    have h : ∀ e, FromWrite sink e → SvOwn sink (.writeStr t) e := fun _ h => .inl h
    have hi : SvOwn sink (.writeStr t) .incompleteUtf8 := .inr (.inr (.inr ⟨⟨_, rfl⟩, rfl⟩))
    pl [pl_fail hi, pl_writeStringValuePiece h]
  | flush => exact Tracks.map (tracks (pl_flush fun _ h => h.imp id fun h => .inl ⟨rfl, h⟩))

theorem svOps_reasons {sink : Sink} {os : List SvOp} {c : Core} {earlier : List WErr} (hc : Remembers earlier c) :
    ((svOps os).run c).Rs (FromWrite sink) (FromFlush sink) fun r => ∃ rs, r.1 = .ok rs ∧ SvReasons sink earlier os rs ∧
      ∀ e, r.2.sv.error = some e → e ∈ earlier ∨ Except.error e ∈ rs := by
  induction os generalizing c earlier with
  | nil => exact ⟨[], rfl, .nil, fun e he => .inl (hc e he)⟩
  | cons o os ih =>
    unfold svOps
    rw [T.run_bind]
    refine Tree.Rs.bind (P := fun r => ∃ r', r.1 = .ok r' ∧ (∀ a, r' = .ok a → Remembers earlier r.2) ∧
      ∀ e, r' = .error e → (SvOwn sink o e ∨ ∃ e' ∈ earlier, e = .previous e') ∧ Remembers (e :: earlier) r.2)
      (attempt_rs (svOp_tracks c earlier hc) fun r hr => ⟨r.1, rfl, hr⟩) ?_
    rintro ⟨_, c'⟩ ⟨r', rfl, h1, h2⟩
    show ((svOps os >>= fun rs => pure (r' :: rs)).run c').Rs _ _ _
    rw [T.run_bind]
    cases r' with
    | ok a =>
      refine (ih (h1 a rfl)).bind ?_
      rintro ⟨_, c''⟩ ⟨rs, rfl, h3, h4⟩
      exact ⟨_, rfl, .ok h3, fun e he => (h4 e he).imp id (List.mem_cons_of_mem _)⟩
    | error e =>
      refine (ih (h2 e rfl).2).bind ?_
      rintro ⟨_, c''⟩ ⟨rs, rfl, h3, h4⟩
      refine ⟨_, rfl, .error ?_ h3, fun x hx => ?_⟩
      · rcases (h2 e rfl).1 with (h | h | h | h) | h
        · exact .inl h
        · exact .inr (.inl h)
        · exact .inr (.inr (.inl h))
        · exact .inr (.inr (.inr (.inl h)))
        · exact .inr (.inr (.inr (.inr h)))
      · rcases h4 x hx with h | h
        · rcases List.mem_cons.1 h with rfl | h
          · exact .inr List.mem_cons_self
          · exact .inl h
        · exact .inr (List.mem_cons_of_mem _ h)

theorem svFinishValue_reasons {sink : Sink} {c : Core} {rs : List (Except WErr Nat)} (hc : ∀ e, c.sv.error = some e → Except.error e ∈ rs) :
    (svFinishValue.run c).Rs (FromWrite sink) (FromFlush sink) fun r => ∀ e, r.1 = .error e → FinishReason sink rs e := by
  unfold svFinishValue checkPreviousError
  rw [T.run_bind, T.run_bind]
  show ((Tree.bind ((match c.sv.error with | none => pure () | some e => T.fail (.previous e) : W Unit).run c) _).Rs (FromWrite sink) (FromFlush sink) _)
  cases he : c.sv.error with
  | some e => exact fun e' h' => by cases h'; exact .inr (.inr ⟨e, hc e he, rfl⟩)
  | none =>
    show ((if 0 < c.sv.utf8Pos then T.fail .incompleteUtf8 else do
      T.writeBytes [0x22]
      T.modify fun c => { c with stringWriterActive := false, sv := .new } : W Unit).run c).Rs _ _ _
    split
    · exact fun e' h' => by cases h'; exact .inr (.inl rfl)
    · exact ⟨nofun, fun e he e' h' => by cases h'; exact .inl he⟩

/-! ## Calls -/

theorem stringValueWriter_reasons {sink : Sink} {c : Core} : (stringValueWriter.run c).Rs (FromWrite sink) (FromFlush sink) fun r =>
    (∀ a, r.1 = .ok a → r.2.sv.error = none) ∧ ∀ e, r.1 = .error e → FromWrite sink e := by
  have h : Pl (FromWrite sink) (FromFlush sink) (FromWrite sink) (do beforeValue; T.writeBytes [0x22] : W Unit) := by
    have h : ∀ e, FromWrite sink e → FromWrite sink e := fun _ h => h
    pl [pl_beforeValue h]
  have hg : stringValueWriter.run c = ((do beforeValue; T.writeBytes [0x22] : W Unit) >>= fun _ =>
      T.modify fun c => { c with stringWriterActive := true, sv := .new }).run c := by
    rw [bind_assoc']
    rfl
  rw [hg, T.run_bind]
  refine (h c).bind fun r hr => ?_
  obtain ⟨r, c'⟩ := r
  cases r with
  | ok a => exact ⟨fun _ _ => rfl, nofun⟩
  | error e => exact ⟨nofun, fun e' h' => by cases h'; exact hr.1 e rfl⟩

/-- The errors of the methods of the writer -/
def Own (sink : Sink) (op : WOp) (e : WErr) : Prop :=
  FromWrite sink e ∨ (op = .finishDocument ∧ FromFlush sink e) ∨ (NumberRejected op ∧ e = .invalidNumber)

theorem unit_reasons {sink : Sink} {op : WOp} {m : W Unit} {c : Core} (h : Pl (FromWrite sink) (FromFlush sink) (Own sink op) m) :
    ((do m; pure .unit : W WOut).run c).Rs (FromWrite sink) (FromFlush sink) fun r => Reason sink op r.1 := by
  rw [T.run_bind]
  refine (h c).bind fun r hr => ?_
  obtain ⟨r, c'⟩ := r
  cases r with
  | ok a => trivial
  | error e => exact hr.1 e rfl

theorem wop_reasons {sink : Sink} {op : WOp} {c : Core} :
    ((wop op).run c).Rs (FromWrite sink) (FromFlush sink) fun r => Reason sink op r.1 := by
  have h : ∀ e, FromWrite sink e → Own sink op e := fun _ h => .inl h
  cases op with
  | beginObject => exact unit_reasons (by unfold beginObject; pl [pl_beforeValue h])
  | name n =>
    refine unit_reasons ?_
    unfold name; pl [pl_beforeContainerElement h, pl_writeStringValue h]
  | endObject => exact unit_reasons (by unfold endObject; pl [pl_onContainerEnd h])
  | beginArray => exact unit_reasons (by unfold beginArray; pl [pl_beforeValue h])
  | endArray => exact unit_reasons (by unfold endArray; pl [pl_onContainerEnd h])
  | stringValue t => exact unit_reasons (by unfold stringValue; pl [pl_beforeValue h, pl_writeStringValue h])
  | boolValue b => exact unit_reasons (by unfold boolValue; pl [pl_beforeValue h])
  | nullValue => exact unit_reasons (by unfold nullValue; pl [pl_beforeValue h])
  | numberValue n =>
    refine unit_reasons ?_
    unfold numberValue FinNum.useJsonNumber
    cases n with
    | int => exact pl_ite (pl_numberText h) pl_internal
    | transferred => exact pl_numberText h
  | fpNumberValue n =>
    refine unit_reasons ?_
    unfold fpNumberValue FpNum.useJsonNumber
    split
    · exact pl_ite (pl_numberText h) pl_internal
    · rename_i hf; exact pl_fail (.inr (.inr ⟨Bool.eq_false_iff.2 hf, rfl⟩))
  | numberValueFromString t =>
    refine unit_reasons ?_
    unfold numberValueFromString
    split
    · exact pl_numberText h
    · rename_i hf; exact pl_fail (.inr (.inr ⟨fun hn => hf ((isValid_iff t).2 hn), rfl⟩))
  | finishDocument =>
    refine unit_reasons ?_
    unfold finishDocument
    have hf : ∀ e, FromWrite sink e ∨ FromFlush sink e → Own sink .finishDocument e := fun _ h => h.imp id fun h => .inl ⟨rfl, h⟩
    pl [pl_flush hf]
  | stringValueWriter ops finish =>
    show ((stringValueWriter >>= fun _ => svOps ops >>= fun rs => if finish then do
        let r ← T.attempt svFinishValue
        pure (.string rs (some r))
      else pure (.string rs none) : W WOut).run c).Rs _ _ _
    rw [T.run_bind]
    refine stringValueWriter_reasons.bind fun r hr => ?_
    obtain ⟨r, c'⟩ := r
    cases r with
    | error e => exact .inl (hr.2 e rfl)
    | ok a =>
      show ((svOps ops >>= _).run c').Rs _ _ _
      rw [T.run_bind]
      refine (svOps_reasons (earlier := []) fun e he => absurd ((hr.1 a rfl).symm.trans he) nofun).bind ?_
      rintro ⟨_, c''⟩ ⟨rs, rfl, h1, h2⟩
      cases finish with
      | false => exact ⟨_, _, rfl, h1, fun _ => rfl, nofun⟩
      | true =>
        show ((T.attempt svFinishValue >>= fun r => pure (.string rs (some r)) : W WOut).run c'').Rs _ _ _
        rw [T.run_bind]
        refine Tree.Rs.bind (P := fun r => ∃ r', r.1 = .ok r' ∧ ∀ e, r' = .error e → FinishReason sink rs e)
          (attempt_rs (svFinishValue_reasons fun e he => (h2 e he).resolve_left nofun) fun r hr => ⟨r.1, rfl, hr⟩) ?_
        rintro ⟨_, c3⟩ ⟨r', rfl, h3⟩
        exact ⟨_, _, rfl, h1, nofun, fun e he => h3 e (Option.some.inj he)⟩

/-- All results have a reason -/
def Reasons (sink : Sink) (ops : List WOp) (rs : List (Except WErr WOut)) : Prop :=
  ∀ (i : Nat) r, rs[i]? = some r → ∃ op, ops[i]? = some op ∧ Reason sink op r

theorem Reasons.nil {sink : Sink} {ops : List WOp} : Reasons sink ops [] := fun i r h => by simp at h

theorem Reasons.cons {sink : Sink} {op : WOp} {ops : List WOp} {r : Except WErr WOut} {rs : List (Except WErr WOut)} (h : Reason sink op r)
    (hs : Reasons sink ops rs) : Reasons sink (op :: ops) (r :: rs) := by
  intro i r' hr
  cases i with
  | zero => cases hr; exact ⟨op, rfl, h⟩
  | succ i => exact hs i r' hr

theorem wopsAll_reasons {sink : Sink} {ops : List WOp} {c : Core} :
    ((wopsAll ops).run c).Rs (FromWrite sink) (FromFlush sink) fun r => ∃ rs, r.1 = .ok rs ∧ Reasons sink ops rs := by
  induction ops generalizing c with
  | nil => exact ⟨[], rfl, .nil⟩
  | cons op ops ih =>
    unfold wopsAll
    refine wop_reasons.bind fun r hr => ?_
    obtain ⟨r, c'⟩ := r
    dsimp only
    split
    · exact ⟨_, rfl, .cons hr .nil⟩
    · refine ih.bind ?_
      rintro ⟨_, c''⟩ ⟨rs, rfl, h⟩
      exact ⟨_, rfl, .cons hr h⟩

theorem wops_reasons {sink : Sink} {ops : List WOp} {c : Core} :
    ((wops ops).run c).Rs (FromWrite sink) (FromFlush sink) fun r => ∃ rs, r.1 = .ok rs ∧ Reasons sink ops rs := by
  induction ops generalizing c with
  | nil => exact ⟨[], rfl, .nil⟩
  | cons op ops ih =>
    unfold wops
    refine wop_reasons.bind fun r hr => ?_
    obtain ⟨r, c'⟩ := r
    cases r with
    | ok x =>
      dsimp only
      split
      · exact ⟨_, rfl, .cons hr .nil⟩
      · refine ih.bind ?_
        rintro ⟨_, c''⟩ ⟨rs, rfl, h⟩
        exact ⟨_, rfl, .cons hr h⟩
    | error e =>
      dsimp only
      split
      · refine ih.bind ?_
        rintro ⟨_, c''⟩ ⟨rs, rfl, h⟩
        exact ⟨_, rfl, .cons hr h⟩
      · exact ⟨_, rfl, .cons hr .nil⟩

theorem execAll_reasons {N : Nat} {st : WSettings} {sink : Sink} {ops : List WOp} {rs : List (Except WErr WOut)}
    (h : (execAll N st sink ops).1 = .ok rs) : Reasons sink ops rs := by
  unfold execAll at h
  generalize hr : ((wopsAll ops).run (Core.new st)).run.run (BufSink.new N sink) = r at h
  match r, h, hr with
  | .ok (.ok rs', _) _, h, hr =>
    cases h
    obtain ⟨_, h1, h2⟩ := wopsAll_reasons.run (sink := sink) ⟨fun _ h => h, fun _ h => h⟩ hr
    cases h1
    exact h2
  | .ok (.error e, _) _, _, _ => exact nomatch e
  | .err p _, h, _ => cases h

theorem execW_reasons {N : Nat} {st : WSettings} {sink : Sink} {ops : List WOp} {rs : List (Except WErr WOut)}
    (h : (execW N st sink ops).1 = .ok rs) : Reasons sink ops rs := by
  unfold execW at h
  generalize hr : ((wops ops).run (Core.new st)).run.run (BufSink.new N sink) = r at h
  match r, h, hr with
  | .ok (.ok rs', _) _, h, hr =>
    cases h
    obtain ⟨_, h1, h2⟩ := wops_reasons.run (sink := sink) ⟨fun _ h => h, fun _ h => h⟩ hr
    cases h1
    exact h2
  | .ok (.error e, _) _, _, _ => exact nomatch e
  | .err p _, h, _ => cases h

end Verif.Writer
