import Verif.Proofs.Writer.Exec
import Verif.Spec.WriteCalls

/-!
How often the writer calls the underlying `Write`.
-/

namespace Verif.Writer

/-! ## The buffer -/

theorem writeAll_full {data rec : Bytes} {L m : Nat} (h : data.length ≤ L) :
    writeAll data rec (List.replicate m (.accept L)) = (.ok (), rec ++ data, List.replicate (if data = [] then m else m - 1) (.accept L)) := by
  cases m with
  | zero => simp [writeAll]
  | succ m =>
    rw [List.replicate_succ, writeAll_cons]
    by_cases hd : data = []
    · subst hd
      simp [List.replicate_succ]
    · have hl : 0 < data.length := List.length_pos_iff.2 hd
      have h1 : data.isEmpty = false := by simpa using hd
      have h2 : data.drop L = [] := List.drop_of_length_le h
      have h3 : data.take L = data := List.take_of_length_le h
      simp only [h1, Bool.false_eq_true, if_false, hd, h2, h3, Nat.add_sub_cancel]
      rw [if_neg (by omega)]
      cases m with
      | zero => simp [writeAll]
      | succ m => simp [List.replicate_succ, writeAll_cons]

/-- `calls` calls of `Write::write` have been made since the state in which `base` bytes had been received and `R` calls were left; each of them was for a full
buffer, except for at most `u` of them -/
structure Thrifty (N R L base u : Nat) (k : BufSink) : Prop where
  good : k.Good
  len : k.buf.length = N
  calls : ∃ m, m ≤ R ∧ k.sink.writes = List.replicate (R - m) (.accept L) ∧ base + N * m ≤ k.sink.received.length + (N - 1) * u

variable {N R L base u : Nat}

theorem Thrifty.mono {k : BufSink} (h : Thrifty N R L base u k) {u' : Nat} (hu : u ≤ u') : Thrifty N R L base u' k := by
  obtain ⟨h1, h2, m, h3, h4, h5⟩ := h
  exact ⟨h1, h2, m, h3, h4, Nat.le_trans h5 (Nat.add_le_add_left (Nat.mul_le_mul_left _ hu) _)⟩

theorem writeBytesLoop_thrifty (hL : N ≤ L) {fuel : Nat} {bytes : Bytes} {k : BufSink} (hk : Thrifty N R L base u k) (hf : bytes.length < fuel) :
    ∃ k', (writeBytesLoop fuel bytes).run k = .ok () k' ∧ Thrifty N R L base u k' := by
  induction fuel generalizing bytes k with
  | zero => omega
  | succ fuel ih =>
    rw [writeBytesLoop]
    by_cases hb : bytes.isEmpty
    · rw [if_pos hb]
      exact ⟨k, rfl, hk⟩
    · rw [if_neg hb]
      rw [List.isEmpty_iff] at hb
      rw [M.bind_ok (M.run_get _)]
      dsimp only
      rw [M.bind_ok (M.run_modify _ _), M.bind_ok (M.run_get _)]
      dsimp only
      obtain ⟨hg, hlN, m, hm, hw, hr⟩ := hk
      unfold BufSink.Good at hg
      have hlen : (bytes.take (min (k.buf.length - k.pos) bytes.length)).length = min (k.buf.length - k.pos) bytes.length := by simp
      generalize hc : min (k.buf.length - k.pos) bytes.length = c at hlen
      have hbl : 0 < bytes.length := List.length_pos_iff.2 hb
      have hle : k.pos + (bytes.take c).length ≤ k.buf.length := by omega
      have hl := overwrite_length hle
      have hdrop : (bytes.drop c).length < fuel := by simp; omega
      by_cases hfull : (overwrite k.buf k.pos (bytes.take c)).length ≤ k.pos + c
      · rw [if_pos hfull]
        have hne : overwrite k.buf k.pos (bytes.take c) ≠ [] := by
          intro h0; rw [h0] at hl; simp at hl; omega
        have hrun : (sinkWriteAll (overwrite k.buf k.pos (bytes.take c))).run { k with buf := overwrite k.buf k.pos (bytes.take c), pos := k.pos + c } =
            .ok () ⟨⟨k.sink.received ++ overwrite k.buf k.pos (bytes.take c), List.replicate (R - m - 1) (.accept L), k.sink.flushes⟩,
              overwrite k.buf k.pos (bytes.take c), k.pos + c⟩ := by
          unfold sinkWriteAll Sink.writeAll
          dsimp only
          rw [hw, writeAll_full (by omega), if_neg hne]
        rw [M.bind_ok hrun, M.bind_ok (M.run_modify _ _)]
        refine ih ⟨?_, hl.trans hlN, ?_⟩ hdrop
        · show 0 < (overwrite k.buf k.pos (bytes.take c)).length
          omega
        · by_cases hM : m = R
          · refine ⟨m, hm, ?_, ?_⟩
            · show List.replicate (R - m - 1) _ = _
              rw [hM]; simp
            · show _ ≤ (k.sink.received ++ overwrite k.buf k.pos (bytes.take c)).length + _
              rw [List.length_append]; omega
          · refine ⟨m + 1, by omega, ?_, ?_⟩
            · show List.replicate (R - m - 1) _ = _
              rw [Nat.sub_sub]
            · show _ ≤ (k.sink.received ++ overwrite k.buf k.pos (bytes.take c)).length + _
              rw [List.length_append, hl, hlN, Nat.mul_succ]; omega
      · rw [if_neg hfull]
        refine ih ⟨?_, hl.trans hlN, m, hm, hw, hr⟩ hdrop
        show k.pos + c < (overwrite k.buf k.pos (bytes.take c)).length
        omega

theorem writeBytes_thrifty (hL : N ≤ L) (bytes : Bytes) {k : BufSink} (hk : Thrifty N R L base u k) :
    ∃ k', (writeBytes bytes).run k = .ok () k' ∧ Thrifty N R L base u k' :=
  writeBytesLoop_thrifty hL hk (by omega)

theorem sinkFlush_state (k : BufSink) : ∃ fl, (sinkFlush.run k = .ok () { k with sink := { k.sink with flushes := fl } }) ∨
    ∃ e, sinkFlush.run k = .err (.err e) { k with sink := { k.sink with flushes := fl } } := by
  unfold sinkFlush Sink.flush
  dsimp only
  obtain ⟨⟨rec, ws, fl⟩, buf, pos⟩ := k
  match fl with
  | [] => exact ⟨[], .inl rfl⟩
  | none :: es => exact ⟨es, .inl rfl⟩
  | some c :: es => exact ⟨es, .inr ⟨_, rfl⟩⟩

theorem flush_thrifty (hL : N ≤ L) {k : BufSink} (hk : Thrifty N R L base u k) :
    ∃ k', (flush.run k = .ok () k' ∨ ∃ e, flush.run k = .err (.err e) k') ∧ Thrifty N R L base (u + 1) k' := by
  obtain ⟨hg, hlN, m, hm, hw, hr⟩ := hk
  unfold BufSink.Good at hg
  unfold flush
  rw [M.bind_ok (M.run_get _)]
  have htl : (k.buf.take k.pos).length = k.pos := by rw [List.length_take]; omega
  have hrun : (sinkWriteAll (k.buf.take k.pos)).run k = .ok () ⟨⟨k.sink.received ++ k.buf.take k.pos,
      List.replicate (if k.buf.take k.pos = [] then R - m else R - m - 1) (.accept L), k.sink.flushes⟩, k.buf, k.pos⟩ := by
    unfold sinkWriteAll Sink.writeAll
    dsimp only
    rw [hw, writeAll_full (by omega)]
  rw [M.bind_ok hrun, M.bind_ok (M.run_modify _ _)]
  dsimp only
  have hT : ∀ fl, Thrifty N R L base (u + 1) ⟨⟨k.sink.received ++ k.buf.take k.pos,
      List.replicate (if k.buf.take k.pos = [] then R - m else R - m - 1) (.accept L), fl⟩, k.buf, 0⟩ := by
    intro fl
    refine ⟨Nat.lt_of_le_of_lt (Nat.zero_le _) hg, hlN, ?_⟩
    have e1 : (N - 1) * (u + 1) = (N - 1) * u + (N - 1) := Nat.mul_succ ..
    by_cases h0 : k.buf.take k.pos = []
    · refine ⟨m, hm, by simp [h0], ?_⟩
      show _ ≤ (k.sink.received ++ k.buf.take k.pos).length + _
      rw [List.length_append]; omega
    · have hp : 0 < (k.buf.take k.pos).length := List.length_pos_iff.2 h0
      by_cases hM : m = R
      · refine ⟨m, hm, by simp [hM], ?_⟩
        show _ ≤ (k.sink.received ++ k.buf.take k.pos).length + _
        rw [List.length_append]; omega
      · refine ⟨m + 1, by omega, by simp [h0, Nat.sub_sub], ?_⟩
        show _ ≤ (k.sink.received ++ k.buf.take k.pos).length + _
        rw [List.length_append, Nat.mul_succ]; omega
  obtain ⟨fl, h | ⟨e, h⟩⟩ := sinkFlush_state ⟨⟨k.sink.received ++ k.buf.take k.pos,
      List.replicate (if k.buf.take k.pos = [] then R - m else R - m - 1) (.accept L), k.sink.flushes⟩, k.buf, 0⟩
  · exact ⟨_, .inl h, hT fl⟩
  · exact ⟨_, .inr ⟨e, h⟩, hT fl⟩

/-! ## Computations with at most `n` flushes -/

def Tree.Flushes {β : Type} : Nat → Tree β → Prop
  | _, .ret _ => True
  | _, .panic _ => True
  | n, .emit _ k => ∀ r, (k r).Flushes n
  | n, .flush k => ∃ n', n = n' + 1 ∧ ∀ r, (k r).Flushes n'

theorem Tree.Flushes.mono {β : Type} {t : Tree β} {n n' : Nat} (h : t.Flushes n) (hn : n ≤ n') : t.Flushes n' := by
  induction t generalizing n n' with
  | ret => trivial
  | panic => trivial
  | emit bs k ih => exact fun r => ih r (h r) hn
  | flush k ih =>
    obtain ⟨m, rfl, h⟩ := h
    exact ⟨n' - 1, by omega, fun r => ih r (h r) (by omega)⟩

theorem Tree.Flushes.bind {α β : Type} {t : Tree α} {f : α → Tree β} {a b : Nat} (h : t.Flushes a) (hf : ∀ x, (f x).Flushes b) : (t.bind f).Flushes (a + b) := by
  induction t generalizing a with
  | ret x => exact (hf x).mono (by omega)
  | panic => trivial
  | emit bs k ih => exact fun r => ih r (h r)
  | flush k ih =>
    obtain ⟨m, rfl, h⟩ := h
    exact ⟨m + b, by omega, fun r => ih r (h r)⟩

theorem Tree.Flushes.run {β : Type} (hL : N ≤ L) {t : Tree β} {n : Nat} (h : t.Flushes n) {k : BufSink} (hk : Thrifty N R L base u k) :
    Thrifty N R L base (u + n) (stateOf (t.run.run k)) := by
  induction t generalizing n u k with
  | ret x => exact hk.mono (by omega)
  | panic => exact hk.mono (by omega)
  | emit bs kk ih =>
    obtain ⟨k', h1, h2⟩ := writeBytes_thrifty hL bs hk
    have : (Tree.emit bs kk).run.run k = (kk (.ok ())).run.run k' := by
      rw [Tree.run]
      dsimp only
      rw [h1]
    rw [this]
    exact ih _ (h _) h2
  | flush kk ih =>
    obtain ⟨m, rfl, h⟩ := h
    obtain ⟨k', h1, h2⟩ := flush_thrifty hL hk
    rcases h1 with h1 | ⟨e, h1⟩
    · have : (Tree.flush kk).run.run k = (kk (.ok ())).run.run k' := by
        rw [Tree.run]
        dsimp only
        rw [h1]
      rw [this]
      exact (ih _ (h _) h2).mono (by omega)
    · have : (Tree.flush kk).run.run k = (kk (.error e)).run.run k' := by
        rw [Tree.run]
        dsimp only
        rw [h1]
      rw [this]
      exact (ih _ (h _) h2).mono (by omega)

/-- the method flushes at most `n` times -/
structure Fl {ε σ α : Type} (n : Nat) (m : T ε σ α) : Prop where
  run : ∀ s, (m.run s).Flushes n

section
variable {ε σ α β : Type}

theorem Fl.mono {m : T ε σ α} {n n' : Nat} (h : Fl n m) (hn : n ≤ n') : Fl n' m := ⟨fun s => (h.run s).mono hn⟩

theorem Fl.pure (a : α) : Fl 0 (Pure.pure a : T ε σ α) := ⟨fun _ => trivial⟩
theorem Fl.get : Fl 0 (T.get : T ε σ σ) := ⟨fun _ => trivial⟩
theorem Fl.modify (f : σ → σ) : Fl 0 (T.modify f : T ε σ Unit) := ⟨fun _ => trivial⟩
theorem Fl.fail (e : ε) : Fl 0 (T.fail e : T ε σ α) := ⟨fun _ => trivial⟩
theorem Fl.usage (p : WUsage) : Fl 0 (T.usage p : T ε σ α) := ⟨fun _ => trivial⟩
theorem Fl.internal (p : WInternal) : Fl 0 (T.internal p : T ε σ α) := ⟨fun _ => trivial⟩
theorem Fl.writeBytes (bs : Bytes) : Fl 0 (T.writeBytes bs : T WErr σ Unit) := ⟨fun _ _ => trivial⟩
theorem Fl.flush : Fl 1 (T.flush : T WErr σ Unit) := ⟨fun _ => ⟨0, rfl, fun _ => trivial⟩⟩

theorem Fl.bind' {m : T ε σ α} {f : α → T ε σ β} {a b : Nat} (h : Fl a m) (hf : ∀ x, Fl b (f x)) : Fl (a + b) (m >>= f) := by
  refine ⟨fun s => (h.run s).bind ?_⟩
  rintro ⟨x | x, s'⟩
  · trivial
  · exact (hf x).run s'

theorem Fl.bind {m : T ε σ α} {f : α → T ε σ β} (h : Fl 0 m) (hf : ∀ x, Fl 0 (f x)) : Fl 0 (m >>= f) := Fl.bind' h hf

theorem Fl.attempt {m : T ε σ α} {n : Nat} (h : Fl n m) : Fl n (T.attempt m) := by
  exact ⟨fun s => (h.run s).bind (b := 0) (fun _ => trivial)⟩

theorem Fl.ite {c : Prop} [Decidable c] {m m' : T ε σ α} {n : Nat} (h : Fl n m) (h' : Fl n m') : Fl n (if c then m else m') := by
  split
  · exact h
  · exact h'
end

/-- one step of the proof that a method does not flush -/
macro "fl0" : tactic => `(tactic| repeat (first
  | assumption
  | exact Fl.pure _ | exact Fl.get | exact Fl.modify _ | exact Fl.fail _ | exact Fl.usage _ | exact Fl.internal _ | exact Fl.writeBytes _
  | apply Fl.ite | apply Fl.bind | intro _ | split))

theorem fl_csub (a b : Nat) : Fl 0 (csub a b) := by unfold csub; fl0
theorem fl_slice (b : Bytes) (i j : Nat) : Fl 0 (slice b i j) := by unfold slice; fl0
theorem fl_increase : Fl 0 increaseIndentation := by unfold increaseIndentation; fl0
theorem fl_decrease : Fl 0 decreaseIndentation := by
  unfold decreaseIndentation
  exact Fl.get.bind fun _ => (fl_csub _ _).bind fun _ => Fl.modify _
theorem fl_indentLoop (n : Nat) : Fl 0 (writeIndentationLoop n) := by
  induction n with
  | zero => exact Fl.pure _
  | succ n ih => exact (Fl.writeBytes _).bind fun _ => ih
theorem fl_indent : Fl 0 writeIndentation := Fl.get.bind fun _ => fl_indentLoop _

theorem fl_beforeContainer : Fl 0 beforeContainerElement := by
  have h1 := fl_increase
  have h2 := fl_indent
  unfold beforeContainerElement; fl0
theorem fl_separator : Fl 0 beforeValueSeparator := by
  have h1 := fl_beforeContainer
  unfold beforeValueSeparator; fl0
theorem fl_beforeValue : Fl 0 beforeValue := by
  have h1 := fl_separator
  unfold beforeValue; fl0
theorem fl_containerEnd : Fl 0 onContainerEnd := by
  have h1 := fl_decrease
  have h2 := fl_indent
  unfold onContainerEnd; fl0
theorem fl_toHex (i : Nat) : Fl 0 (toHex i) := by unfold toHex; fl0
theorem fl_unicodeEscape (v : Nat) : Fl 0 (getUnicodeEscape v) := by
  have h := fl_toHex
  unfold getUnicodeEscape
  refine Fl.ite (Fl.internal _) ((h _).bind fun _ => (h _).bind fun _ => (h _).bind fun _ => (h _).bind fun _ => Fl.pure _)
theorem fl_escaped (c : Char) : Fl 0 (writeEscapedChar c) := by
  have h := fl_unicodeEscape
  unfold writeEscapedChar
  split
  · exact Fl.writeBytes _
  · exact Fl.ite ((Fl.writeBytes _).bind fun _ => (h _).bind fun _ => Fl.writeBytes _)
      ((fl_csub _ _).bind fun _ => (Fl.writeBytes _).bind fun _ => (h _).bind fun _ => (Fl.writeBytes _).bind fun _ => (Fl.writeBytes _).bind fun _ => (h _).bind fun _ => Fl.writeBytes _)
theorem fl_pieceLoop (b : Bytes) (t : Text) (i n : Nat) : Fl 0 (pieceLoop b t i n) := by
  induction t generalizing i n with
  | nil => exact Fl.pure _
  | cons c cs ih =>
    rw [pieceLoop]
    refine Fl.get.bind fun _ => Fl.ite ?_ (ih _ _)
    have h := (fl_escaped c).bind fun _ => ih (i + (String.utf8EncodeChar c).length) (i + (String.utf8EncodeChar c).length)
    exact Fl.ite ((fl_slice _ _ _).bind fun _ => (Fl.writeBytes _).bind fun _ => h) h
theorem fl_piece (t : Text) : Fl 0 (writeStringValuePiece t) := by
  unfold writeStringValuePiece
  exact (fl_pieceLoop _ _ _ _).bind fun _ => Fl.ite ((fl_slice _ _ _).bind fun _ => Fl.writeBytes _) (Fl.pure _)
theorem fl_string (t : Text) : Fl 0 (writeStringValue t) := (Fl.writeBytes _).bind fun _ => (fl_piece t).bind fun _ => Fl.writeBytes _

theorem fl_finNum (n : FinNum) (f : Text → W Unit) (hf : ∀ t, Fl 0 (f t)) : Fl 0 (n.useJsonNumber f) := by
  unfold FinNum.useJsonNumber
  split
  · exact Fl.ite (hf _) (Fl.internal _)
  · exact hf _
theorem fl_fpNum (n : FpNum) (f : Text → W Unit) (hf : ∀ t, Fl 0 (f t)) : Fl 0 (n.useJsonNumber f) :=
  by unfold FpNum.useJsonNumber; exact Fl.ite (Fl.ite (hf _) (Fl.internal _)) (Fl.fail _)

theorem fl_decodeChar (b : Bytes) : Fl 0 (decodeUtf8Char b) := by unfold decodeUtf8Char; fl0
theorem fl_fromUtf8 (b : Bytes) : Fl 0 (fromUtf8 b) := by unfold fromUtf8; fl0
theorem fl_setBuf (p : Nat) (b : Bytes) : Fl 0 (setUtf8Buf p b) := by unfold setUtf8Buf; fl0
theorem fl_setPos (p : Nat) : Fl 0 (setUtf8Pos p) := by unfold setUtf8Pos; fl0
theorem fl_complete (b : Bytes) : Fl 0 (completeChar b) := by
  unfold completeChar
  refine Fl.get.bind fun _ => Fl.ite ?_ (Fl.pure _)
  refine (fl_csub _ _).bind fun _ => (fl_setBuf _ _).bind fun _ => (fl_setPos _).bind fun _ => Fl.ite ?_ (Fl.pure _)
  exact (fl_setPos _).bind fun _ => Fl.get.bind fun _ => (fl_slice _ _ _).bind fun _ => (fl_decodeChar _).bind fun _ => (fl_piece _).bind fun _ => Fl.pure _
theorem fl_maxOr (a b c : Nat) : Fl 0 (maxOrOffsetNegative a b c) := by
  have h := fl_csub
  unfold maxOrOffsetNegative
  exact Fl.ite (Fl.internal _) (Fl.ite (Fl.pure _) (h _ _))
theorem fl_expected (b : UInt8) : Fl 0 (expectedBytesCount b) := by unfold expectedBytesCount; fl0
theorem fl_implLoop (b : Bytes) (s : Nat) (fuel i : Nat) : Fl 0 (writeImplLoop b s fuel i) := by
  induction fuel generalizing i with
  | zero => exact Fl.internal _
  | succ fuel ih =>
    rw [writeImplLoop]
    split
    · refine Fl.ite (ih _) ((fl_expected _).bind fun x => ?_)
      split
      · exact ih _
      · exact Fl.ite ((fl_slice _ _ _).bind fun _ => (fl_fromUtf8 _).bind fun _ => (fl_piece _).bind fun _ => (Fl.modify _).bind fun _ => (fl_setPos _).bind fun _ =>
          (fl_setBuf _ _).bind fun _ => Fl.pure _) (ih _)
    · exact (fl_slice _ _ _).bind fun _ => (fl_fromUtf8 _).bind fun _ => (fl_piece _).bind fun _ => Fl.pure _
theorem fl_impl (b : Bytes) : Fl 0 (writeImpl b) :=
  by unfold writeImpl; exact Fl.ite (Fl.pure _) ((fl_complete _).bind fun _ => (fl_maxOr _ _ _).bind fun _ => fl_implLoop _ _ _ _)

theorem fl_checkPrevious : Fl 0 checkPreviousError := by unfold checkPreviousError; fl0
theorem fl_tracking {α : Type} {m : W α} {n : Nat} (h : Fl n m) : Fl n (runWithErrorTracking m) := by
  refine (fl_checkPrevious.bind' fun _ => h.attempt.bind' (b := 0) fun x => ?_).mono (by omega)
  split
  · exact Fl.pure _
  · exact (Fl.modify _).bind fun _ => Fl.fail _

theorem fl_svOp (o : SvOp) : Fl (svFlushes [o]) (svOp o) := by
  cases o with
  | write bs => exact fl_tracking (fl_impl bs)
  | writeStr t =>
    refine Fl.bind (fl_tracking (Fl.get.bind fun _ => Fl.ite (Fl.fail _) (fl_piece _))) fun _ => Fl.pure _
  | flush => exact Fl.bind' (b := 0) (fl_tracking Fl.flush) fun _ => Fl.pure _

theorem svFlushes_cons (o : SvOp) (os : List SvOp) : svFlushes (o :: os) = svFlushes [o] + svFlushes os := by
  cases o <;> simp [svFlushes] <;> omega

theorem fl_svOps (os : List SvOp) : Fl (svFlushes os) (svOps os) := by
  induction os with
  | nil => exact Fl.pure _
  | cons o os ih =>
    rw [svFlushes_cons]
    exact (fl_svOp o).attempt.bind' fun _ => (ih.bind' (b := 0) fun _ => Fl.pure _).mono (by omega)

theorem fl_unit {m : W Unit} {n : Nat} (h : Fl n m) : Fl n (do m; pure WOut.unit) := h.bind' (b := 0) fun _ => Fl.pure _

theorem fl_wop (o : WOp) : Fl (flushRequests [o]) (wop o) := by
  have hb := fl_beforeValue
  cases o with
  | beginObject => refine fl_unit ?_; unfold beginObject; fl0
  | name n =>
    have h1 := fl_beforeContainer
    have h2 := fl_string n
    refine fl_unit ?_; unfold name; fl0
  | endObject => have h1 := fl_containerEnd; refine fl_unit ?_; unfold endObject; fl0
  | beginArray => refine fl_unit ?_; unfold beginArray; fl0
  | endArray => have h1 := fl_containerEnd; refine fl_unit ?_; unfold endArray; fl0
  | stringValue t => have h1 := fl_string t; refine fl_unit ?_; unfold stringValue; fl0
  | boolValue b => refine fl_unit ?_; unfold boolValue; fl0
  | nullValue => refine fl_unit ?_; unfold nullValue; fl0
  | numberValue n => exact fl_unit (fl_finNum _ _ fun _ => hb.bind fun _ => Fl.writeBytes _)
  | fpNumberValue n => exact fl_unit (fl_fpNum _ _ fun _ => hb.bind fun _ => Fl.writeBytes _)
  | numberValueFromString t => refine fl_unit ?_; unfold numberValueFromString; fl0
  | stringValueWriter ops finish =>
    have h1 : Fl 0 stringValueWriter := by unfold stringValueWriter; fl0
    have h2 : Fl 0 svFinishValue := by
      have := fl_checkPrevious
      unfold svFinishValue; fl0
    exact (h1.bind' fun _ => (fl_svOps ops).bind' (b := 0) fun _ => Fl.ite (h2.attempt.bind fun _ => Fl.pure _) (Fl.pure _)).mono (by simp [flushRequests])
  | finishDocument =>
    refine fl_unit ?_
    have h0 : ∀ p, Fl 1 (T.usage p : W Unit) := fun p => (Fl.usage p).mono (by omega)
    exact (Fl.get.bind' (b := 1) fun _ => Fl.ite (h0 _) (Fl.ite (h0 _) (Fl.ite (Fl.ite (h0 _) Fl.flush) (h0 _)))).mono (by simp [flushRequests])

theorem flushRequests_cons (o : WOp) (os : List WOp) : flushRequests (o :: os) = flushRequests [o] + flushRequests os := by
  cases o <;> simp [flushRequests]

theorem fl_wopsAll (os : List WOp) : Fl (flushRequests os) (wopsAll os) := by
  induction os with
  | nil => exact ⟨fun _ => trivial⟩
  | cons o os ih =>
    refine ⟨fun c => ?_⟩
    rw [flushRequests_cons]
    refine ((fl_wop o).run c).bind ?_
    rintro ⟨r, c'⟩
    show Tree.Flushes _ (if _ then _ else _)
    split
    · trivial
    · refine ((ih.run c').bind (b := 0) ?_).mono (by omega)
      rintro ⟨e | rs, c''⟩
      · exact nomatch e
      · trivial

theorem fl_wops (os : List WOp) : Fl (flushRequests os) (wops os) := by
  induction os with
  | nil => exact ⟨fun _ => trivial⟩
  | cons o os ih =>
    refine ⟨fun c => ?_⟩
    rw [flushRequests_cons]
    refine ((fl_wop o).run c).bind ?_
    rintro ⟨e | x, c'⟩
    · show Tree.Flushes _ (if _ then _ else _)
      split
      · refine ((ih.run c').bind (b := 0) ?_).mono (by omega)
        rintro ⟨e | rs, c''⟩
        · exact nomatch e
        · trivial
      · trivial
    · show Tree.Flushes _ (if _ then _ else _)
      split
      · trivial
      · refine ((ih.run c').bind (b := 0) ?_).mono (by omega)
        rintro ⟨e | rs, c''⟩
        · exact nomatch e
        · trivial

theorem calls_div (hN : 0 < N) {m x b f : Nat} (h : b + N * m ≤ x + (N - 1) * f) : m ≤ (x - b) / N + f := by
  have h1 : N * (m - f) ≤ x - b := by
    rcases Nat.le_total m f with hm | hm
    · rw [Nat.sub_eq_zero_of_le hm, Nat.mul_zero]; exact Nat.zero_le _
    · obtain ⟨d, rfl⟩ := Nat.exists_eq_add_of_le hm
      rw [Nat.add_sub_cancel_left]
      have e1 : N * (f + d) = N * f + N * d := Nat.mul_add ..
      have e2 : (N - 1) * f ≤ N * f := Nat.mul_le_mul_right _ (by omega)
      omega
  have h2 : m - f ≤ (x - b) / N := (Nat.le_div_iff_mul_le hN).2 (by rw [Nat.mul_comm]; exact h1)
  omega

theorem new_thrifty (hN : 0 < N) (rec : Bytes) (fl : List (Option Nat)) : Thrifty N R L rec.length 0 (BufSink.new N ⟨rec, List.replicate R (.accept L), fl⟩) :=
  ⟨new_good hN _, by simp [BufSink.new], 0, Nat.zero_le _, by simp [BufSink.new], by simp [BufSink.new]⟩

theorem execW_sink (N : Nat) (st : WSettings) (sink : Sink) (ops : List WOp) :
    (execW N st sink ops).2 = (stateOf (((wops ops).run (Core.new st)).run.run (BufSink.new N sink))).sink := by
  unfold execW
  generalize ((wops ops).run (Core.new st)).run.run (BufSink.new N sink) = r
  match r with
  | .ok (.ok rs, _) k => rfl
  | .ok (.error e, _) _ => exact nomatch e
  | .err p k => rfl

theorem execAll_sink (N : Nat) (st : WSettings) (sink : Sink) (ops : List WOp) :
    (execAll N st sink ops).2 = (stateOf (((wopsAll ops).run (Core.new st)).run.run (BufSink.new N sink))).sink := by
  unfold execAll
  generalize ((wopsAll ops).run (Core.new st)).run.run (BufSink.new N sink) = r
  match r with
  | .ok (.ok rs, _) k => rfl
  | .ok (.error e, _) _ => exact nomatch e
  | .err p k => rfl

/-! ## Calls of `Write::flush` -/

theorem sinkWriteAll_flushes (data : Bytes) (k : BufSink) : (∃ k', (sinkWriteAll data).run k = .ok () k' ∧ k'.sink.flushes = k.sink.flushes) ∨
    ∃ e k', (sinkWriteAll data).run k = .err (.err e) k' ∧ k'.sink.flushes = k.sink.flushes := by
  unfold sinkWriteAll Sink.writeAll
  dsimp only
  generalize writeAll data k.sink.received k.sink.writes = x
  obtain ⟨e | u, rec, es⟩ := x
  · exact .inr ⟨_, _, rfl, rfl⟩
  · exact .inl ⟨_, rfl, rfl⟩

theorem writeBytesLoop_flushes (fuel : Nat) (bytes : Bytes) (k : BufSink) : (∃ k', (writeBytesLoop fuel bytes).run k = .ok () k' ∧ k'.sink.flushes = k.sink.flushes) ∨
    ∃ e k', (writeBytesLoop fuel bytes).run k = .err e k' ∧ k'.sink.flushes = k.sink.flushes := by
  induction fuel generalizing bytes k with
  | zero => exact .inr ⟨_, _, rfl, rfl⟩
  | succ fuel ih =>
    rw [writeBytesLoop]
    split
    · exact .inl ⟨_, rfl, rfl⟩
    · rw [M.bind_ok (M.run_get _)]
      dsimp only
      rw [M.bind_ok (M.run_modify _ _), M.bind_ok (M.run_get _)]
      dsimp only
      split
      · rcases sinkWriteAll_flushes (overwrite k.buf k.pos (bytes.take (min (k.buf.length - k.pos) bytes.length)))
          { k with buf := overwrite k.buf k.pos (bytes.take (min (k.buf.length - k.pos) bytes.length)), pos := k.pos + min (k.buf.length - k.pos) bytes.length } with
          ⟨k', h1, h2⟩ | ⟨e, k', h1, h2⟩
        · rw [M.bind_ok h1, M.bind_ok (M.run_modify _ _)]
          rcases ih (bytes.drop (min (k.buf.length - k.pos) bytes.length)) { k' with pos := 0 } with ⟨k2, h3, h4⟩ | ⟨e, k2, h3, h4⟩
          · exact .inl ⟨k2, h3, h4.trans h2⟩
          · exact .inr ⟨e, k2, h3, h4.trans h2⟩
        · rw [M.bind_err h1]
          exact .inr ⟨_, _, rfl, h2⟩
      · exact ih _ _

theorem flush_flushes (k : BufSink) :
    (∃ k', flush.run k = .ok () k' ∧ k'.sink.flushes = k.sink.flushes.drop 1 ∧ k.sink.flushes.head?.join = none) ∨
    ∃ e k', flush.run k = .err (.err e) k' ∧ (k'.sink.flushes = k.sink.flushes ∨ k'.sink.flushes = k.sink.flushes.drop 1) := by
  unfold flush
  rw [M.bind_ok (M.run_get _)]
  rcases sinkWriteAll_flushes (k.buf.take k.pos) k with ⟨k', h1, h2⟩ | ⟨e, k', h1, h2⟩
  · rw [M.bind_ok h1, M.bind_ok (M.run_modify _ _)]
    rw [← h2]
    obtain ⟨⟨rec, ws, fl⟩, buf, pos⟩ := k'
    match fl with
    | [] => exact .inl ⟨_, rfl, rfl, rfl⟩
    | none :: es => exact .inl ⟨_, rfl, rfl, rfl⟩
    | some c :: es => exact .inr ⟨_, _, rfl, .inr rfl⟩
  · rw [M.bind_err h1]
    exact .inr ⟨_, _, rfl, .inl h2⟩

/-- the computation ends with a successful flush whenever its result satisfies `P`; `b`: the last effect before it was a successful flush -/
def Tree.EndFlush {β : Type} (P : β → Prop) : Bool → Tree β → Prop
  | b, .ret x => P x → b = true
  | _, .panic _ => True
  | _, .emit _ k => ∀ r, (k r).EndFlush P false
  | _, .flush k => (k (.ok ())).EndFlush P true ∧ ∀ e, (k (.error e)).EndFlush P false

theorem Tree.EndFlush.bind {α β : Type} {P : β → Prop} {t : Tree α} {f : α → Tree β} {b : Bool} (hf : ∀ b x, (f x).EndFlush P b) : (t.bind f).EndFlush P b := by
  induction t generalizing b with
  | ret x => exact hf b x
  | panic => trivial
  | emit bs k ih => exact fun r => ih r
  | flush k ih => exact ⟨ih _, fun e => ih _⟩

/-- `f` calls of `Write::flush`; `b`: the last of them was successful -/
def Flushed (fl : List (Option Nat)) (f : Nat) (b : Bool) (k : BufSink) : Prop :=
  k.sink.flushes = fl.drop f ∧ (b = true → 1 ≤ f ∧ (fl[f - 1]?).join = none)

theorem Tree.Flushes.count {β : Type} {P : β → Prop} {t : Tree β} {n : Nat} (h : t.Flushes n) {b : Bool} (he : t.EndFlush P b) {fl : List (Option Nat)} {f : Nat} {k : BufSink}
    (hk : Flushed fl f b k) : ∃ f' b', f' ≤ f + n ∧ Flushed fl f' b' (stateOf (t.run.run k)) ∧ ∀ x, resOf (t.run.run k) = .ok x → P x → b' = true := by
  induction t generalizing n f b k with
  | ret x => exact ⟨f, b, by omega, hk, by rintro _ ⟨⟩; exact he⟩
  | panic => exact ⟨f, b, by omega, hk, by rintro _ ⟨⟩⟩
  | emit bs kk ih =>
    rcases writeBytesLoop_flushes (bs.length + 2) bs k with ⟨k', h1, h2⟩ | ⟨e, k', h1, h2⟩
    · have : (Tree.emit bs kk).run.run k = (kk (.ok ())).run.run k' := by
        rw [Tree.run]
        dsimp only
        rw [show (writeBytes bs).run k = _ from h1]
      rw [this]
      exact ih _ (h _) (he _) (k := k') ⟨h2.trans hk.1, fun h => absurd h (by decide)⟩
    · cases e with
      | err e =>
        have : (Tree.emit bs kk).run.run k = (kk (.error e)).run.run k' := by
          rw [Tree.run]
          dsimp only
          rw [show (writeBytes bs).run k = _ from h1]
        rw [this]
        exact ih _ (h _) (he _) (k := k') ⟨h2.trans hk.1, fun h => absurd h (by decide)⟩
      | panic p =>
        have : (Tree.emit bs kk).run.run k = .err p k' := by
          rw [Tree.run]
          dsimp only
          rw [show (writeBytes bs).run k = _ from h1]
        rw [this]
        exact ⟨f, false, by omega, ⟨h2.trans hk.1, fun h => absurd h (by decide)⟩, by rintro _ ⟨⟩⟩
  | flush kk ih =>
    obtain ⟨m, rfl, h⟩ := h
    rcases flush_flushes k with ⟨k', h1, h2, h3⟩ | ⟨e, k', h1, h2⟩
    · have : (Tree.flush kk).run.run k = (kk (.ok ())).run.run k' := by
        rw [Tree.run]
        dsimp only
        rw [h1]
      rw [this]
      have hk' : Flushed fl (f + 1) true k' := by
        refine ⟨by rw [h2, hk.1, List.drop_drop], fun _ => ⟨by omega, ?_⟩⟩
        rw [hk.1] at h3
        simpa using h3
      obtain ⟨f', b', e1, e2, e3⟩ := ih _ (h _) he.1 hk'
      exact ⟨f', b', by omega, e2, e3⟩
    · have : (Tree.flush kk).run.run k = (kk (.error e)).run.run k' := by
        rw [Tree.run]
        dsimp only
        rw [h1]
      rw [this]
      rcases h2 with h2 | h2
      · obtain ⟨f', b', e1, e2, e3⟩ := ih _ (h _) (he.2 e) (k := k') (f := f) ⟨h2.trans hk.1, fun h => absurd h (by decide)⟩
        exact ⟨f', b', by omega, e2, e3⟩
      · obtain ⟨f', b', e1, e2, e3⟩ := ih _ (h _) (he.2 e) (k := k') (f := f + 1) ⟨by rw [h2, hk.1, List.drop_drop], fun h => absurd h (by decide)⟩
        exact ⟨f', b', by omega, e2, e3⟩

/-- the results of a sequence of calls which ends successfully -/
def GoodEnd : Except Empty (List (Except WErr WOut)) × Core → Prop
  | (.ok rs, _) => rs = [] ∨ ∃ x, rs.getLast? = some (.ok x)
  | (.error _, _) => False

theorem Tree.EndFlush.bind' {α β : Type} {P : α → Prop} {Q : β → Prop} {t : Tree α} {f : α → Tree β} {b : Bool} (h : t.EndFlush P b)
    (hf : ∀ x b, (P x → b = true) → (f x).EndFlush Q b) : (t.bind f).EndFlush Q b := by
  induction t generalizing b with
  | ret x => exact hf x b h
  | panic => trivial
  | emit bs k ih => exact fun r => ih r (h r)
  | flush k ih => exact ⟨ih _ h.1, fun e => ih _ (h.2 e)⟩

theorem finish_endFlush (c : Core) (b : Bool) : ((wop .finishDocument).run c).EndFlush (fun x => ∃ y, x.1 = .ok y) b := by
  show Tree.EndFlush _ b ((T.bind finishDocument fun _ => pure WOut.unit).run c)
  unfold finishDocument
  show Tree.EndFlush _ b ((T.bind (T.bind T.get fun c => _) fun _ => pure WOut.unit).run c)
  show Tree.EndFlush _ b ((T.bind (if _ then _ else _) fun _ => pure WOut.unit).run c)
  split
  · trivial
  · split
    · trivial
    · split
      · split
        · trivial
        · exact ⟨fun _ => rfl, fun e => by rintro ⟨y, hy⟩; cases hy⟩
      · trivial

theorem cons_endFlush {os : List WOp} {c : Core} (h : ∀ b, ((wops os).run c).EndFlush GoodEnd b) (r : Except WErr WOut) (b : Bool) :
    (((wops os).run c).bind fun
      | (.ok rs, c'') => .ret (.ok (r :: rs), c'')
      | (.error e, _) => nomatch e).EndFlush GoodEnd b := by
  refine (h b).bind' ?_
  rintro ⟨e | rs, c'⟩ b hb
  · exact nomatch e
  · intro hg
    apply hb
    cases rs with
    | nil => exact .inl rfl
    | cons r' rs =>
      rcases hg with hg | ⟨x, hg⟩
      · cases hg
      · exact .inr ⟨x, by simpa [List.getLast?_cons_cons] using hg⟩

theorem wops_endFlush {os : List WOp} (h : os.getLast? = some .finishDocument) (c : Core) (b : Bool) : ((wops os).run c).EndFlush GoodEnd b := by
  induction os generalizing c b with
  | nil => cases h
  | cons o os ih =>
    have hrest : ∀ c' r b, os = [] ∧ r.isOk = false ∨ os ≠ [] → (((wops os).run c').bind fun
      | (.ok rs, c'') => .ret (.ok (r :: rs), c'')
      | (.error e, _) => nomatch e).EndFlush GoodEnd b := by
      intro c' r b hos
      rcases hos with ⟨rfl, hr⟩ | hos
      · intro hg
        rcases hg with hg | ⟨x, hg⟩
        · cases hg
        · cases hg; cases hr
      · obtain ⟨o', os', rfl⟩ := List.exists_cons_of_ne_nil hos
        rw [List.getLast?_cons_cons] at h
        exact cons_endFlush (fun b => ih h c' b) r b
    have herr : ∀ e c' b, (if e = WErr.invalidNumber then (((wops os).run c').bind fun
        | (.ok rs, c'') => .ret (.ok (Except.error e :: rs), c'')
        | (.error e, _) => nomatch e)
        else Tree.ret (Except.ok [Except.error e], c')).EndFlush GoodEnd b := by
      intro e c' b
      split
      · refine hrest _ _ _ ?_
        by_cases hos : os = []
        · exact .inl ⟨hos, rfl⟩
        · exact .inr hos
      · rintro (hg | ⟨x, hg⟩)
        · cases hg
        · cases hg
    by_cases ho : o = .finishDocument
    · subst ho
      refine (finish_endFlush c b).bind' ?_
      rintro ⟨e | x, c'⟩ b hb
      · exact herr e c' b
      · exact fun _ => hb ⟨x, rfl⟩
    · refine Tree.EndFlush.bind ?_
      rintro b ⟨e | x, c'⟩
      · exact herr e c' b
      · show Tree.EndFlush _ _ (if o = .finishDocument then _ else _)
        rw [if_neg ho]
        refine hrest _ _ _ (.inr ?_)
        rintro rfl
        cases h
        exact ho rfl

theorem execW_result {N : Nat} {st : WSettings} {sink : Sink} {ops : List WOp} {rs : List (Except WErr WOut)} (h : (execW N st sink ops).1 = .ok rs) :
    ∃ c, resOf (((wops ops).run (Core.new st)).run.run (BufSink.new N sink)) = .ok (.ok rs, c) := by
  revert h
  unfold execW
  generalize ((wops ops).run (Core.new st)).run.run (BufSink.new N sink) = r
  match r with
  | .ok (.ok rs, c) k => rintro ⟨⟩; exact ⟨c, rfl⟩
  | .ok (.error e, _) _ => exact nomatch e
  | .err p k => rintro ⟨⟩

theorem noEnd {β : Type} (t : Tree β) (b : Bool) : t.EndFlush (fun _ => False) b := by
  induction t generalizing b with
  | ret x => exact fun h => h.elim
  | panic => trivial
  | emit bs k ih => exact fun r => ih r _
  | flush k ih => exact ⟨ih _ _, fun e => ih _ _⟩

end Verif.Writer
