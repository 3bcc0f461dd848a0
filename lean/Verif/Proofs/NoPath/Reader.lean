import Verif.Proofs.NoPath.Basic
/-! # The methods of the reader with and without path tracking -/

namespace Verif.NoPath
open Reader

/-- combine the rules -/
macro "er1" : tactic => `(tactic| first
  | assumption | (with_reducible exact Er.pure _) | (with_reducible exact Er.syn)
  | (with_reducible exact Er.io) | (with_reducible exact Er.struct) | (with_reducible exact Er.usage) | (with_reducible exact Er.internal) | (with_reducible exact Er.unwrap) | (with_reducible exact Er.adv)
  | (with_reducible exact Er.fuel)
  | ((with_reducible refine Er.modify ?_) <;> (intro _ _; exact ⟨rfl, rfl⟩))
  | ((with_reducible refine Er.get ?_ fun _ => ?_); focus (intro _ _; rfl))
  | (with_reducible refine Er.bindS ?_ fun _ => ?_) | (with_reducible refine Er.ite ?_ ?_) | split | (show Er _ _ _ _; dsimp only))

macro "er" : tactic => `(tactic| repeat (any_goals er1))

variable {p : Bool}

theorem peekByte_er : Er p p peekByte peekByte := .lift op_peek
theorem skipPeekedByte_er : Er p p skipPeekedByte skipPeekedByte := .lift op_skip
theorem vPeek_er : Er p p vPeek vPeek := .lift op_peek

theorem readByte_er {k : SyntaxKind} : Er p p (readByte k) (readByte k) := by
  have := @peekByte_er p; have := @skipPeekedByte_er p
  unfold readByte; er

theorem vReadByte_er {k : SyntaxKind} : Er p p (vReadByte k) (vReadByte k) := by
  have := @vPeek_er p; have := Er.lift (op_consume (p := p))
  unfold vReadByte
  er

theorem checkValid_er {o : Option Bool} {bs : Bytes} : Er p p (checkValid o bs) (checkValid o bs) := by
  unfold checkValid; er

/-! ## UTF-8 and escape sequences, for two ways of reading bytes -/

section
variable {rb rb' : SyntaxKind → R AbsSrc UInt8} (hb : ∀ k, Er p p (rb k) (rb' k))
include hb

theorem multibyte_er {b : UInt8} : Er p p (readUtf8Multibyte rb b) (readUtf8Multibyte rb' b) := by
  have h1 := hb .incompleteDocument
  have h2 := fun o bs => @checkValid_er p o bs
  unfold readUtf8Multibyte
  er <;> exact h2 _ _

omit hb in
theorem hex_er {d : UInt8} : Er p p (parseHexDigit d) (parseHexDigit d) := by unfold parseHexDigit; er

theorem escape_er : Er p p (readUnicodeEscape rb) (readUnicodeEscape rb') := by
  have h1 := hb .malformedEscapeSequence
  have h : Er p p (readHexByte rb) (readHexByte rb') := by
    unfold readHexByte
    exact Er.bind h1 fun _ => hex_er
  unfold readUnicodeEscape; er

omit hb in
theorem escapedChar_er {c n : Nat} : Er p p (escapedChar c n) (escapedChar c n) := by
  unfold escapedChar
  exact Er.bind Er.unwrap fun _ => Er.pure _

theorem escapeChar_er : Er p p (readUnicodeEscapeChar rb) (readUnicodeEscapeChar rb') := by
  have h1 := hb .unpairedSurrogatePairEscapeSequence
  have h2 := escape_er hb
  have h3 : ∀ c, Er p p (readLowSurrogate rb c) (readLowSurrogate rb' c) := by
    intro c; unfold readLowSurrogate
    exact Er.bind h2 fun _ => Er.ite Er.syn (escapedChar_er)
  unfold readUnicodeEscapeChar
  er <;> first | exact h3 _ | exact escapedChar_er
end

/-! ## Whitespace and peeking -/

theorem skipToByte_er {b : UInt8} {cr : Bool} : Er p p (skipToByte b cr) (skipToByte b cr) := by
  have h := multibyte_er (p := p) (rb := readByte) (rb' := readByte) (fun _ => readByte_er) (b := b)
  unfold skipToByte; cases cr <;> er

theorem skipToLoop_er {stop : UInt8 → Bool} {k : Option SyntaxKind} : ∀ {n : Nat} {cr : Bool}, Er p p (skipToLoop stop k n cr) (skipToLoop stop k n cr)
  | 0, _ => Er.fuel
  | n + 1, cr => by
    have h1 := @peekByte_er p; have h2 := @skipPeekedByte_er p
    unfold skipToLoop; er
    · exact skipToByte_er
    · exact skipToLoop_er

theorem skipTo_er {stop : UInt8 → Bool} {k : Option SyntaxKind} : Er p p (skipTo stop k) (skipTo stop k) := by
  unfold skipTo; er; exact skipToLoop_er

theorem block_er : ∀ {n : Nat}, Er p p (skipToBlockCommentEnd n) (skipToBlockCommentEnd n)
  | 0 => Er.fuel
  | n + 1 => by
    have h1 := @peekByte_er p; have h2 := @skipPeekedByte_er p
    rw [skipToBlockCommentEnd]; er
    · exact skipTo_er
    · exact block_er

theorem comment_er {k : Option SyntaxKind} : Er p p (skipComment k) (skipComment k) := by
  have h1 := @skipPeekedByte_er p; have h2 := @readByte_er p .incompleteComment
  unfold skipComment; er
  · exact block_er
  · exact skipTo_er

theorem wsLoop_er {k : Option SyntaxKind} : ∀ {n : Nat}, Er p p (skipWhitespaceLoop k n) (skipWhitespaceLoop k n)
  | 0 => Er.fuel
  | n + 1 => by
    have h1 := @peekByte_er p
    have h2 := comment_er (p := p) (k := k)
    unfold skipWhitespaceLoop; er
    · exact skipTo_er
    · exact wsLoop_er

theorem ws_er {k : Option SyntaxKind} : Er p p (skipWhitespace k) (skipWhitespace k) := by
  unfold skipWhitespace; er; exact wsLoop_er

theorem ws'_er {k : SyntaxKind} : Er p p (skipWhitespaceNoEof k) (skipWhitespaceNoEof k) := by
  have := ws_er (p := p) (k := some k)
  unfold skipWhitespaceNoEof; er

theorem sep_er {k : SyntaxKind} : Er p p (verifyValueSeparator k) (verifyValueSeparator k) := by
  have := @peekByte_er p
  unfold verifyValueSeparator; er

theorem litBytes_er : ∀ {bs : Bytes}, Er p p (consumeLiteralBytes bs) (consumeLiteralBytes bs)
  | [] => Er.pure _
  | b :: bs => by
    have := @readByte_er p .invalidLiteral
    have := @litBytes_er bs
    rw [consumeLiteralBytes]; er

theorem lit_er {bs : Bytes} : Er p p (consumeLiteral bs) (consumeLiteral bs) := by
  have := @litBytes_er p bs
  unfold consumeLiteral; er; exact sep_er

theorem afterName_er : Er p p afterName afterName := by
  have := @ws'_er p .missingColon
  have := @skipPeekedByte_er p
  unfold afterName; er

theorem classify_er {b : UInt8} : Er p p (classify b) (classify b) := by
  have h := fun bs => @lit_er p bs
  unfold classify; er <;> exact h _

theorem finishPeek_er {c : Bool} {o : Option (Nat × Nat × Nat)} {k : Peeked × Bool} : Er p p (finishPeek c o k) (finishPeek c o k) := by
  have h := @skipPeekedByte_er p
  unfold finishPeek
  rintro s _ ⟨acc, ha, rfl⟩
  have hs : Er p p (do (if k.2 then skipPeekedByte else pure ()); M.modify fun s => { s with peeked := some k.1 }; pure (some k.1) : R AbsSrc (Option Peeked))
      (do (if k.2 then skipPeekedByte else pure ()); M.modify fun s => { s with peeked := some k.1 }; pure (some k.1)) := by er
  have hr : Rl p s (E acc s) := ⟨acc, ha, rfl⟩
  refine ErG.ite (P := fun x y => s = x ∧ y = E acc s) ?_ ?_ s (E acc s) ⟨rfl, rfl⟩
  · rintro _ _ ⟨rfl, rfl⟩
    rcases o with _ | ⟨l, cl, bp⟩
    · exact hs _ _ hr
    · refine ErG.ite (P := fun x y => s = x ∧ y = E acc s) ?_ ?_ s (E acc s) ⟨rfl, rfl⟩
      · rintro _ _ ⟨rfl, rfl⟩
        exact .inr ⟨_, rfl, nofun⟩
      · rintro _ _ ⟨rfl, rfl⟩
        exact hs _ _ hr
  · rintro _ _ ⟨rfl, rfl⟩
    exact Er.ite Er.syn hs _ _ hr

theorem peekToken_er : Er p p peekToken peekToken := by
  have := @skipPeekedByte_er p
  have := @ws_er p none
  have := @ws'_er p .incompleteDocument
  have h1 := fun b => @classify_er p b
  have h2 := fun c o k => @finishPeek_er p c o k
  unfold peekToken; er <;> first | exact h1 _ | exact h2 _ _ _

theorem pio_er : Er p p peekInternalOptional peekInternalOptional := by
  have := @afterName_er p
  have := @peekToken_er p
  unfold peekInternalOptional; er

theorem pi_er : Er p p peekInternal peekInternal := by
  have := @pio_er p
  unfold peekInternal; er

theorem mapPeeked_er {k : Peeked} : Er p p (mapPeeked k) (mapPeeked k) := by
  unfold mapPeeked; er

theorem consumePeeked_er : Er p p consumePeeked consumePeeked := by
  unfold consumePeeked
  rintro s _ ⟨acc, ha, rfl⟩
  rcases s with ⟨c, k, e, m, st, sr, l, cl, b, pa, se⟩
  cases k with
  | none => exact .inl ⟨_, rfl⟩
  | some k => exact ⟨rfl, acc, ha, rfl⟩

theorem sev_er {t : ValueType} {c : Bool} : Er p p (startExpectedValueType t c) (startExpectedValueType t c) := by
  have h1 : ∀ (k : Peeked) (v : ValueType), Er p p (do
      let s ← M.get
      if v == t then
        match (if c then depthExceeded s else none) with
        | some max => M.fail (.maxNestingDepthExceeded max (loc s))
        | none => do
          consumePeeked
          pure k
      else M.fail (.unexpectedValueType t v (loc s))) (do
      let s ← M.get
      if v == t then
        match (if c then depthExceeded s else none) with
        | some max => M.fail (.maxNestingDepthExceeded max (loc s))
        | none => do
          consumePeeked
          pure k
      else M.fail (.unexpectedValueType t v (loc s))) := by
    rintro k v s _ ⟨acc, ha, rfl⟩
    refine ErG.ite (P := fun x y => s = x ∧ y = E acc s) ?_ ?_ s (E acc s) ⟨rfl, rfl⟩
    · rintro _ _ ⟨rfl, rfl⟩
      rw [show depthExceeded (E acc s) = depthExceeded s from rfl]
      cases (if c then depthExceeded s else none) with
      | some max => exact .inr ⟨_, rfl, fun _ => ⟨acc, nofun, rfl⟩⟩
      | none => exact Er.bind (consumePeeked_er (p := p)) (fun _ => Er.pure _) _ _ ⟨acc, ha, rfl⟩
    · rintro _ _ ⟨rfl, rfl⟩
      exact .inr ⟨_, rfl, fun _ => ⟨acc, nofun, rfl⟩⟩
  unfold startExpectedValueType
  exact Er.get (fun _ _ => rfl) fun _ => Er.ite Er.usage (Er.bind pi_er fun k => Er.bind mapPeeked_er fun v => h1 k v)

theorem containerStart_er {t : ValueType} {v : StackValue} : Er p p (onContainerStart t v) (onContainerStart t v) := by
  have := @sev_er p t true
  unfold onContainerStart; er

theorem onValueEnd_er : Er p p onValueEnd onValueEnd := by
  unfold onValueEnd
  rintro s _ ⟨acc, ha, rfl⟩
  rcases s with ⟨c, k, e, m, st, sr, l, cl, b, pa, se⟩
  rcases pa with _ | _ | ⟨_ | _, pa⟩ <;> rcases st with _ | ⟨_ | _, st⟩ <;> first | exact ⟨rfl, acc, ha, rfl⟩ | exact .inl ⟨_, rfl⟩

theorem onContainerEnd_er : Er p p onContainerEnd onContainerEnd := by
  have := @onValueEnd_er p
  unfold onContainerEnd; er

/-! ## Strings -/

theorem strBytes_er : Er p p readStringBytes readStringBytes := by
  have h0 := fun k => @readByte_er p k
  have h1 := fun b => multibyte_er h0 (b := b)
  have h2 := escapeChar_er h0
  unfold readStringBytes; er <;> first | exact h0 _ | exact h1 _

theorem skipStr_er : Er p p skipAllStringBytes skipAllStringBytes := by
  have h : ∀ n, Er p p (skipAllStringBytesLoop n) (skipAllStringBytesLoop n) := by
    intro n
    induction n with
    | zero => exact Er.fuel
    | succ n ih =>
      have := @strBytes_er p
      rw [skipAllStringBytesLoop]; er
  unfold skipAllStringBytes; er; exact h _

theorem vReadByteSkip_er {k : SyntaxKind} : Er p p (vReadByteSkip k) (vReadByteSkip k) := by
  have := @vReadByte_er p k
  have := Er.lift (op_drop (p := p))
  unfold vReadByteSkip; er

theorem strEscape_er : Er p p readStringEscape readStringEscape := by
  have h0 := fun k => @vReadByte_er p k
  have := Er.lift (op_drop (p := p))
  have h1 := fun bs => Er.lift (op_push (p := p) (bs := bs))
  have h2 := escapeChar_er (p := p) (rb := vReadByteSkip) (rb' := vReadByteSkip) fun k => vReadByteSkip_er
  unfold readStringEscape; er <;> first | exact h0 _ | exact h1 _

theorem readString_er {b : Bool} : Er p true (readString b) (readString b) := by
  have h0 := fun k => @vReadByte_er true k
  have h3 := Er.lift (op_drop (p := true))
  have h4 := Er.lift (op_get (p := true))
  have h : ∀ n, Er true true (readStringLoop b n) (readStringLoop b n) := by
    intro n
    induction n with
    | zero => exact Er.fuel
    | succ n ih =>
      have := @strEscape_er true
      have h2 := fun b => multibyte_er (p := true) (rb := vReadByte) (rb' := vReadByte) (fun k => h0 k) (b := b)
      rw [readStringLoop]; er <;> first | exact h0 _ | exact h2 _
  unfold readString
  refine Er.bind (Er.lift op_new) fun _ => ?_
  er; exact h _

theorem getStr_er : Er true p (liftS AbsSrc.getStr) (liftS AbsSrc.getStr) := .lift op_getStr

end Verif.NoPath
