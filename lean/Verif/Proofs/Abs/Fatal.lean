import Verif.Proofs.Abs.Same
/-! # Parts of the reader which only fail with fatal errors -/

namespace Verif.Reader
section
variable {σ : Type}

/-- all errors are fatal -/
def Fatal {α : Type} (m : R σ α) : Prop := ∀ s e s', m.run s = .err e s' → e.fatal = true

namespace Fatal
variable {α β : Type} {m : R σ α} {f : α → R σ β}

theorem bind (h : Fatal m) (hf : ∀ a, Fatal (f a)) : Fatal (m >>= f) := by
  intro s e s' hr
  rw [M.run_bind] at hr
  cases hm : m.run s with
  | ok a s1 => rw [hm] at hr; exact hf a _ _ _ hr
  | err e1 s1 => rw [hm] at hr; cases hr; exact h _ _ _ hm

theorem pure (a : α) : Fatal (pure a : R σ α) := fun _ _ _ h => by cases h
theorem get : Fatal (M.get : R σ (RState σ)) := fun _ _ _ h => by cases h
theorem set (s : RState σ) : Fatal (M.set s : R σ Unit) := fun _ _ _ h => by cases h
theorem modify (g : RState σ → RState σ) : Fatal (M.modify g : R σ Unit) := fun _ _ _ h => by cases h
theorem fuel : Fatal (M.fail .outOfFuel : R σ α) := fun _ _ _ h => by cases h; rfl
theorem syn {k : SyntaxKind} : Fatal (syntaxErr k : R σ α) := fun _ _ _ h => by cases h; rfl
theorem io {e : IoErr} : Fatal (ioErr e : R σ α) := fun _ _ _ h => by cases h; rfl
theorem usage {p : UsagePanic} : Fatal (usagePanic p : R σ α) := fun _ _ _ h => by cases h; rfl
theorem internal {p : InternalPanic} : Fatal (internalPanic p : R σ α) := fun _ _ _ h => by cases h; rfl
theorem unwrap {o : Option α} : Fatal (Reader.unwrap o : R σ α) := by
  cases o
  · exact internal
  · exact pure _
theorem adv {a b : Nat} : Fatal (advance a b : R σ Unit) := modify _
theorem lift (m : M SrcErr σ α) : Fatal (liftS m) := by
  intro s e s' h
  unfold liftS at h
  cases hm : m.run s.src with
  | ok a s1 => simp only [hm] at h; cases h
  | err e1 s1 =>
    cases e1 with
    | io c => simp only [hm] at h; cases h; rfl
    | panic p => simp only [hm] at h; cases h; rfl
theorem ite {c : Prop} [Decidable c] {m1 m2 : R σ α} (h1 : Fatal m1) (h2 : Fatal m2) : Fatal (if c then m1 else m2) := by
  split
  · exact h1
  · exact h2
end Fatal
end

/-- combine the rules -/
macro "fatal1" : tactic => `(tactic| first
  | assumption | (with_reducible exact Fatal.pure _) | (with_reducible exact Fatal.get) | (with_reducible exact Fatal.set _) | (with_reducible exact Fatal.modify _) | (with_reducible exact Fatal.syn)
  | (with_reducible exact Fatal.io) | (with_reducible exact Fatal.usage) | (with_reducible exact Fatal.internal) | (with_reducible exact Fatal.unwrap) | (with_reducible exact Fatal.adv)
  | (with_reducible exact Fatal.lift _) | (with_reducible exact Fatal.fuel)
  | (with_reducible refine Fatal.bind ?_ fun _ => ?_) | (with_reducible refine Fatal.ite ?_ ?_) | split | (show Fatal _; dsimp only))

macro "fatal" : tactic => `(tactic| repeat (any_goals fatal1))

section
variable {σ : Type} [ByteSource σ]

theorem fatal_peekByte : Fatal (peekByte : R σ _) := .lift _
theorem fatal_skipPeekedByte : Fatal (skipPeekedByte : R σ _) := .lift _
theorem fatal_vPeek : Fatal (vPeek : R σ _) := .lift _

theorem fatal_readByte {k : SyntaxKind} : Fatal (readByte k : R σ _) := by
  have := fatal_peekByte (σ := σ); have := fatal_skipPeekedByte (σ := σ)
  unfold readByte; fatal

theorem fatal_vReadByte {k : SyntaxKind} : Fatal (vReadByte k : R σ _) := by
  have := fatal_vPeek (σ := σ)
  unfold vReadByte; fatal

theorem fatal_vReadByteSkip {k : SyntaxKind} : Fatal (vReadByteSkip k : R σ _) := by
  have := @fatal_vReadByte σ _ k
  unfold vReadByteSkip; fatal

omit [ByteSource σ] in
theorem fatal_checkValid {o : Option Bool} {bs : Bytes} : Fatal (checkValid o bs : R σ _) := by
  unfold checkValid; fatal

section
variable {rb : SyntaxKind → R σ UInt8} (hb : ∀ k, Fatal (rb k))
include hb

theorem fatal_multibyte {b : UInt8} : Fatal (readUtf8Multibyte rb b) := by
  have h1 := hb .incompleteDocument
  have h2 := fun o bs => @fatal_checkValid σ o bs
  unfold readUtf8Multibyte
  fatal <;> exact h2 _ _

omit [ByteSource σ] hb in
theorem fatal_hex {d : UInt8} : Fatal (parseHexDigit d : R σ _) := by unfold parseHexDigit; fatal

theorem fatal_escape : Fatal (readUnicodeEscape rb) := by
  have h1 := hb .malformedEscapeSequence
  have h : Fatal (readHexByte rb) := by
    unfold readHexByte; fatal
    exact fatal_hex
  unfold readUnicodeEscape; fatal

omit [ByteSource σ] hb in
theorem fatal_escapedChar {c n : Nat} : Fatal (escapedChar c n : R σ _) := by unfold escapedChar; fatal

theorem fatal_escapeChar : Fatal (readUnicodeEscapeChar rb) := by
  have h1 := hb .unpairedSurrogatePairEscapeSequence
  have h2 := fatal_escape hb
  have h3 : ∀ c, Fatal (readLowSurrogate rb c) := by
    intro c; unfold readLowSurrogate
    exact Fatal.bind h2 fun _ => Fatal.ite Fatal.syn (fatal_escapedChar)
  unfold readUnicodeEscapeChar
  fatal <;> first | exact h3 _ | exact fatal_escapedChar
end

theorem fatal_skipToByte {b : UInt8} {cr : Bool} : Fatal (skipToByte b cr : R σ _) := by
  have h := fatal_multibyte (σ := σ) (rb := readByte) (fun _ => fatal_readByte) (b := b)
  unfold skipToByte; fatal

theorem fatal_skipToLoop {stop : UInt8 → Bool} {k : Option SyntaxKind} : ∀ {n : Nat} {cr : Bool}, Fatal (skipToLoop stop k n cr : R σ _)
  | 0, _ => Fatal.fuel
  | n + 1, cr => by
    have h1 := fatal_peekByte (σ := σ); have h2 := fatal_skipPeekedByte (σ := σ)
    unfold skipToLoop; fatal
    · exact fatal_skipToByte
    · exact fatal_skipToLoop

theorem fatal_skipTo {stop : UInt8 → Bool} {k : Option SyntaxKind} : Fatal (skipTo stop k : R σ _) := by
  unfold skipTo; fatal; exact fatal_skipToLoop

theorem fatal_block : ∀ {n : Nat}, Fatal (skipToBlockCommentEnd n : R σ _)
  | 0 => Fatal.fuel
  | n + 1 => by
    have h1 := fatal_peekByte (σ := σ); have h2 := fatal_skipPeekedByte (σ := σ)
    rw [skipToBlockCommentEnd]; fatal
    · exact fatal_skipTo
    · exact fatal_block

theorem fatal_comment {k : Option SyntaxKind} : Fatal (skipComment k : R σ _) := by
  have h1 := fatal_skipPeekedByte (σ := σ); have h2 := @fatal_readByte σ _ .incompleteComment
  unfold skipComment; fatal
  · exact fatal_block
  · exact fatal_skipTo

theorem fatal_wsLoop {k : Option SyntaxKind} : ∀ {n : Nat}, Fatal (skipWhitespaceLoop k n : R σ _)
  | 0 => Fatal.fuel
  | n + 1 => by
    have h1 := fatal_peekByte (σ := σ)
    have h2 := fatal_comment (σ := σ) (k := k)
    unfold skipWhitespaceLoop; fatal
    · exact fatal_skipTo
    · exact fatal_wsLoop

theorem fatal_ws {k : Option SyntaxKind} : Fatal (skipWhitespace k : R σ _) := by
  unfold skipWhitespace; fatal; exact fatal_wsLoop

theorem fatal_ws' {k : SyntaxKind} : Fatal (skipWhitespaceNoEof k : R σ _) := by
  have := fatal_ws (σ := σ) (k := some k)
  unfold skipWhitespaceNoEof; fatal

theorem fatal_sep {k : SyntaxKind} : Fatal (verifyValueSeparator k : R σ _) := by
  have := fatal_peekByte (σ := σ)
  unfold verifyValueSeparator; fatal

theorem fatal_litBytes : ∀ {bs : Bytes}, Fatal (consumeLiteralBytes bs : R σ _)
  | [] => Fatal.pure _
  | b :: bs => by
    have := @fatal_readByte σ _ .invalidLiteral
    have := @fatal_litBytes bs
    rw [consumeLiteralBytes]; fatal

theorem fatal_lit {bs : Bytes} : Fatal (consumeLiteral bs : R σ _) := by
  have := @fatal_litBytes σ _ bs
  unfold consumeLiteral; fatal; exact fatal_sep

theorem fatal_afterName : Fatal (afterName : R σ _) := by
  have := @fatal_ws' σ _ .missingColon
  have := fatal_skipPeekedByte (σ := σ)
  unfold afterName; fatal

theorem fatal_classify {b : UInt8} : Fatal (classify b : R σ _) := by
  have h := fun bs => @fatal_lit σ _ bs
  unfold classify; fatal <;> exact h _

theorem fatal_finishPeek {c : Bool} {o : Option (Nat × Nat × Nat)} {p : Peeked × Bool} : Fatal (finishPeek c o p : R σ _) := by
  have := fatal_skipPeekedByte (σ := σ)
  unfold finishPeek; fatal

theorem fatal_peekToken : Fatal (peekToken : R σ _) := by
  have := fatal_skipPeekedByte (σ := σ)
  have := @fatal_ws σ _ none
  have := @fatal_ws' σ _ .incompleteDocument
  have h1 := fun b => @fatal_classify σ _ b
  have h2 := fun c o p => @fatal_finishPeek σ _ c o p
  unfold peekToken; fatal <;> first | exact h1 _ | exact h2 _ _ _

theorem fatal_pio : Fatal (peekInternalOptional : R σ _) := by
  have := fatal_afterName (σ := σ)
  have := fatal_peekToken (σ := σ)
  unfold peekInternalOptional; fatal

omit [ByteSource σ] in
theorem fatal_consumePeeked : Fatal (consumePeeked : R σ _) := by unfold consumePeeked; fatal

omit [ByteSource σ] in
theorem fatal_onValueEnd : Fatal (onValueEnd : R σ _) := by unfold onValueEnd; fatal

theorem fatal_onContainerEnd : Fatal (onContainerEnd : R σ _) := by
  have := fatal_onValueEnd (σ := σ)
  unfold onContainerEnd; fatal

theorem fatal_strBytes : Fatal (readStringBytes : R σ _) := by
  have h0 := fun k => @fatal_readByte σ _ k
  have h1 := fun b => fatal_multibyte h0 (b := b)
  have h2 := fatal_escapeChar h0
  unfold readStringBytes; fatal <;> first | exact h0 _ | exact h1 _

theorem fatal_skipStr : Fatal (skipAllStringBytes : R σ _) := by
  have h : ∀ n, Fatal (skipAllStringBytesLoop n : R σ _) := by
    intro n
    induction n with
    | zero => exact Fatal.fuel
    | succ n ih =>
      have := fatal_strBytes (σ := σ)
      rw [skipAllStringBytesLoop]; fatal
  unfold skipAllStringBytes; fatal; exact h _

theorem fatal_strEscape : Fatal (readStringEscape : R σ _) := by
  have h0 := fun k => @fatal_vReadByte σ _ k
  have h2 := fatal_escapeChar (σ := σ) (rb := vReadByteSkip) fun k => fatal_vReadByteSkip
  unfold readStringEscape; fatal; exact h0 _

theorem fatal_readString {b : Bool} : Fatal (readString b : R σ _) := by
  have h0 := fun k => @fatal_vReadByte σ _ k
  have h : ∀ n, Fatal (readStringLoop b n : R σ _) := by
    intro n
    induction n with
    | zero => exact Fatal.fuel
    | succ n ih =>
      have := fatal_strEscape (σ := σ)
      have h2 := fun b => fatal_multibyte (σ := σ) (rb := vReadByte) (fun k => h0 k) (b := b)
      rw [readStringLoop]; fatal <;> first | exact h0 _ | exact h2 _
  unfold readString; fatal; exact h _

omit [ByteSource σ] in
theorem fatal_setPathName {t : Text} : Fatal (setPathName t : R σ _) := by unfold setPathName; fatal

end
end Verif.Reader
