import Verif.Model.Reader
/-!
# Reading of bytes does not change the state of the reader, also if it fails

For arbitrary sources and arbitrary states.
-/

namespace Verif.Reader

/-- all outcomes: the new state is related to the old one -/
def All {ε S α : Type} (P : S → S → Prop) (m : M ε S α) : Prop := ∀ s, match m.run s with
  | .ok _ s' => P s s'
  | .err _ s' => P s s'

/-- reflexive and transitive -/
class Pre' {S : Type} (P : S → S → Prop) : Prop where
  refl : ∀ s, P s s
  trans : ∀ {a b c}, P a b → P b c → P a c

namespace All
variable {ε S α β : Type} {P : S → S → Prop} {m : M ε S α} {f : α → M ε S β}

theorem ok (h : All P m) {s s' : S} {a : α} (hr : m.run s = .ok a s') : P s s' := by have := h s; rw [hr] at this; exact this
theorem err (h : All P m) {s s' : S} {e : ε} (hr : m.run s = .err e s') : P s s' := by have := h s; rw [hr] at this; exact this

variable [Pre' P]

theorem bind (h : All P m) (hf : ∀ a, All P (f a)) : All P (m >>= f) := by
  intro s
  rw [M.run_bind]
  cases hm : m.run s with
  | err e s1 => exact h.err hm
  | ok a s1 =>
    dsimp only
    cases h2 : (f a).run s1 with
    | ok b s2 => exact Pre'.trans (h.ok hm) ((hf a).ok h2)
    | err e s2 => exact Pre'.trans (h.ok hm) ((hf a).err h2)

theorem pure (a : α) : All P (pure a : M ε S α) := fun s => Pre'.refl s
theorem fail (e : ε) : All P (M.fail e : M ε S α) := fun s => Pre'.refl s
theorem get : All P (M.get : M ε S S) := fun s => Pre'.refl s
omit [Pre' P] in
theorem modify {g : S → S} (h : ∀ s, P s (g s)) : All P (M.modify g : M ε S Unit) := h
omit [Pre' P] in
theorem ite {c : Prop} [Decidable c] {m1 m2 : M ε S α} (h1 : All P m1) (h2 : All P m2) : All P (if c then m1 else m2) := by
  split
  · exact h1
  · exact h2
end All

/-! ## Numbers -/

section
variable {ε S : Type} {P : S → S → Prop} [Pre' P] {next : M ε S (Option UInt8)} {oof : ε} (hn : All P next)
include hn
open JsonNumber

theorem all_digits (n : Nat) : All P (consumeDigits next oof n) := by
  induction n with
  | zero => exact .fail _
  | succ n ih =>
    unfold consumeDigits
    refine hn.bind fun o => ?_
    cases o with
    | none => exact .pure _
    | some b => exact .ite ih (.pure _)

theorem all_expDigits (n c : Nat) : All P (consumeExpDigits next oof n c) := by
  induction n generalizing c with
  | zero => exact .fail _
  | succ n ih =>
    unfold consumeExpDigits
    refine hn.bind fun o => ?_
    cases o with
    | none => exact .pure _
    | some b => exact .ite (ih _) (.pure _)

omit hn in
theorem all_finish (c : Nat) (b : UInt8) : All P (finish c b : M ε S _) := by
  unfold finish
  exact .ite (.pure _) (.pure _)

theorem all_exponentDigits (n : Nat) (b : UInt8) : All P (exponentDigits next oof n b) := by
  unfold exponentDigits
  refine .ite ((all_expDigits hn _ _).bind fun o => ?_) (.pure _)
  obtain ⟨c, o⟩ := o
  cases o with
  | none => exact .pure _
  | some b => exact all_finish _ _

theorem all_exponentPart (n : Nat) (b : UInt8) : All P (exponentPart next oof n b) := by
  unfold exponentPart
  refine .ite (hn.bind fun o => ?_) (all_finish _ _)
  cases o with
  | none => exact .pure _
  | some b =>
    refine .ite (hn.bind fun o => ?_) (all_exponentDigits hn _ _)
    cases o with
    | none => exact .pure _
    | some b => exact all_exponentDigits hn _ _

theorem all_fractionPart (n : Nat) (b : UInt8) : All P (fractionPart next oof n b) := by
  unfold fractionPart
  refine .ite (hn.bind fun o => ?_) (all_exponentPart hn _ _)
  cases o with
  | none => exact .pure _
  | some b =>
    refine .ite ((all_digits hn _).bind fun o => ?_) (.pure _)
    cases o with
    | none => exact .pure _
    | some b => exact all_exponentPart hn _ _

theorem all_integerPart (n : Nat) (b : UInt8) : All P (integerPart next oof n b) := by
  unfold integerPart
  refine .ite ((all_digits hn _).bind fun o => ?_) (.ite (hn.bind fun o => ?_) (.pure _)) <;>
  · cases o with
    | none => exact .pure _
    | some b => exact all_fractionPart hn _ _

theorem all_consumeJsonNumber (n : Nat) (b : UInt8) : All P (consumeJsonNumber next oof n b) := by
  unfold consumeJsonNumber
  refine .ite (hn.bind fun o => ?_) (all_integerPart hn _ _)
  cases o with
  | none => exact .pure _
  | some b => exact all_integerPart hn _ _

end

section
variable {σ : Type}

/-- Everything except for the source and the position is unchanged -/
structure Fr (s s' : RState σ) : Prop where
  peeked : s'.peeked = s.peeked
  isEmpty : s'.isEmpty = s.isEmpty
  emn : s'.expectsMemberName = s.expectsMemberName
  stack : s'.stack = s.stack
  sra : s'.stringReaderActive = s.stringReaderActive
  path : s'.path = s.path
  settings : s'.settings = s.settings

theorem Fr.refl (s : RState σ) : Fr s s := ⟨rfl, rfl, rfl, rfl, rfl, rfl, rfl⟩
theorem Fr.trans {a b c : RState σ} (h : Fr a b) (h' : Fr b c) : Fr a c :=
  ⟨h'.1.trans h.1, h'.2.trans h.2, h'.3.trans h.3, h'.4.trans h.4, h'.5.trans h.5, h'.6.trans h.6, h'.7.trans h.7⟩
instance : Pre' (Fr (σ := σ)) := ⟨Fr.refl, Fr.trans⟩

/-- only changes the source and the position -/
abbrev Frame {α : Type} (m : R σ α) : Prop := All Fr m

namespace Frame
variable {α : Type}
theorem syn {k : SyntaxKind} : Frame (syntaxErr k : R σ α) := fun s => Fr.refl s
theorem io {e : IoErr} : Frame (ioErr e : R σ α) := fun s => Fr.refl s
theorem usage {p : UsagePanic} : Frame (usagePanic p : R σ α) := All.fail _
theorem internal {p : InternalPanic} : Frame (internalPanic p : R σ α) := All.fail _
theorem unwrap {o : Option α} : Frame (Reader.unwrap o : R σ α) := by
  cases o
  · exact internal
  · exact All.pure _
theorem adv {a b : Nat} : Frame (advance a b : R σ Unit) := All.modify fun _ => ⟨rfl, rfl, rfl, rfl, rfl, rfl, rfl⟩
theorem lift (m : M SrcErr σ α) : Frame (liftS m) := by
  intro s
  unfold liftS
  dsimp only
  cases m.run s.src with
  | ok a c => exact ⟨rfl, rfl, rfl, rfl, rfl, rfl, rfl⟩
  | err e c => cases e <;> exact ⟨rfl, rfl, rfl, rfl, rfl, rfl, rfl⟩
end Frame
end

/-- combine the rules -/
macro "frame1" : tactic => `(tactic| first
  | (with_reducible assumption) | (with_reducible exact All.pure _) | (with_reducible exact All.get) | (with_reducible exact All.fail _) | (with_reducible exact Frame.syn)
  | (with_reducible exact Frame.io) | (with_reducible exact Frame.usage) | (with_reducible exact Frame.internal) | (with_reducible exact Frame.unwrap) | (with_reducible exact Frame.adv)
  | (with_reducible exact Frame.lift _)
  | (with_reducible refine All.bind ?_ fun _ => ?_) | (with_reducible refine All.ite ?_ ?_) | split | (show Frame _; dsimp only))

macro "frame" : tactic => `(tactic| repeat (any_goals frame1))

section
variable {σ : Type} [ByteSource σ]

theorem frame_peekByte : Frame (peekByte : R σ _) := .lift _
theorem frame_skipPeekedByte : Frame (skipPeekedByte : R σ _) := .lift _
theorem frame_vPeek : Frame (vPeek : R σ _) := .lift _

theorem frame_readByte {k : SyntaxKind} : Frame (readByte k : R σ _) := by
  have := frame_peekByte (σ := σ); have := frame_skipPeekedByte (σ := σ)
  unfold readByte; frame

theorem frame_vReadByte {k : SyntaxKind} : Frame (vReadByte k : R σ _) := by
  have := frame_vPeek (σ := σ)
  unfold vReadByte; frame

theorem frame_vReadByteSkip {k : SyntaxKind} : Frame (vReadByteSkip k : R σ _) := by
  have := @frame_vReadByte σ _ k
  unfold vReadByteSkip; frame

section
variable {rb : SyntaxKind → R σ UInt8} (hrb : ∀ k, Frame (rb k))
include hrb
omit [ByteSource σ]
theorem frame_multibyte {b : UInt8} : Frame (readUtf8Multibyte rb b) := by
  have hc : ∀ o bs, Frame (checkValid o bs : R σ _) := by intro o bs; unfold checkValid; frame
  unfold readUtf8Multibyte; frame <;> first | exact hrb _ | exact hc _ _
theorem frame_hex : Frame (readHexByte rb) := by unfold readHexByte parseHexDigit; frame; exact hrb _
theorem frame_escape : Frame (readUnicodeEscape rb) := by
  have := frame_hex hrb
  unfold readUnicodeEscape; frame
theorem frame_escapeChar : Frame (readUnicodeEscapeChar rb) := by
  have := frame_escape hrb
  unfold readUnicodeEscapeChar readLowSurrogate escapedChar; frame <;> exact hrb _
end

theorem frame_skipToByte {b : UInt8} {cr : Bool} : Frame (skipToByte b cr : R σ _) := by
  have h := frame_multibyte (σ := σ) (fun k => frame_readByte (k := k)) (b := b)
  unfold skipToByte; frame
  all_goals exact All.modify fun s => by first | (split <;> exact ⟨rfl, rfl, rfl, rfl, rfl, rfl, rfl⟩) | exact ⟨rfl, rfl, rfl, rfl, rfl, rfl, rfl⟩

theorem frame_skipToLoop {stop : UInt8 → Bool} {k : Option SyntaxKind} : ∀ {n : Nat} {cr : Bool}, Frame (skipToLoop stop k n cr : R σ _)
  | 0, _ => All.fail _
  | n + 1, cr => by
    have h1 := frame_peekByte (σ := σ); have h2 := frame_skipPeekedByte (σ := σ)
    unfold skipToLoop; frame
    · exact frame_skipToByte
    · exact frame_skipToLoop

theorem frame_skipTo {stop : UInt8 → Bool} {k : Option SyntaxKind} : Frame (skipTo stop k : R σ _) := by
  unfold skipTo; frame; exact frame_skipToLoop

theorem frame_block : ∀ {n : Nat}, Frame (skipToBlockCommentEnd n : R σ _)
  | 0 => All.fail _
  | n + 1 => by
    have h1 := frame_peekByte (σ := σ); have h2 := frame_skipPeekedByte (σ := σ)
    rw [skipToBlockCommentEnd]; frame
    · exact frame_skipTo
    · exact frame_block

theorem frame_comment {k : Option SyntaxKind} : Frame (skipComment k : R σ _) := by
  have h1 := frame_skipPeekedByte (σ := σ); have h2 := frame_readByte (σ := σ) (k := .incompleteComment)
  unfold skipComment; frame
  · exact frame_block
  · exact frame_skipTo

theorem frame_wsLoop {k : Option SyntaxKind} : ∀ {n : Nat}, Frame (skipWhitespaceLoop k n : R σ _)
  | 0 => All.fail _
  | n + 1 => by
    have h1 := frame_peekByte (σ := σ)
    have h2 := frame_comment (σ := σ) (k := k)
    unfold skipWhitespaceLoop; frame
    · exact frame_skipTo
    · exact frame_wsLoop

theorem frame_ws {k : Option SyntaxKind} : Frame (skipWhitespace k : R σ _) := by
  unfold skipWhitespace; frame; exact frame_wsLoop

theorem frame_ws' {k : SyntaxKind} : Frame (skipWhitespaceNoEof k : R σ _) := by
  have := frame_ws (σ := σ) (k := some k)
  unfold skipWhitespaceNoEof; frame

theorem frame_verify {k : SyntaxKind} : Frame (verifyValueSeparator k : R σ _) := by
  have := frame_peekByte (σ := σ)
  unfold verifyValueSeparator; frame

theorem frame_lit {bs : Bytes} : Frame (consumeLiteral bs : R σ _) := by
  have h1 := frame_verify (σ := σ) (k := .trailingDataAfterLiteral)
  have h2 : ∀ bs, Frame (consumeLiteralBytes bs : R σ _) := by
    intro bs
    induction bs with
    | nil => exact All.pure _
    | cons b bs ih =>
      have := frame_readByte (σ := σ) (k := .invalidLiteral)
      rw [consumeLiteralBytes]; frame
  have := h2 bs
  unfold consumeLiteral; frame

theorem frame_afterName : Frame (afterName : R σ _) := by
  have := frame_ws' (σ := σ) (k := .missingColon)
  have := frame_skipPeekedByte (σ := σ)
  unfold afterName; frame

theorem frame_classify {b : UInt8} : Frame (classify b : R σ _) := by
  have h := fun bs => frame_lit (σ := σ) (bs := bs)
  unfold classify; frame <;> exact h _

theorem frame_readStringBytes : Frame (readStringBytes : R σ _) := by
  have h1 : ∀ k, Frame (readByte k : R σ _) := fun _ => frame_readByte
  have h2 := frame_escapeChar h1
  have h3 : ∀ b, Frame (readUtf8Multibyte readByte b : R σ _) := fun _ => frame_multibyte h1
  unfold readStringBytes; frame <;> first | exact h1 _ | exact h3 _

theorem frame_skipAllStringBytes : Frame (skipAllStringBytes : R σ _) := by
  have : ∀ n, Frame (skipAllStringBytesLoop n : R σ _) := by
    intro n
    induction n with
    | zero => exact All.fail _
    | succ n ih =>
      have := frame_readStringBytes (σ := σ)
      unfold skipAllStringBytesLoop; frame
  unfold skipAllStringBytes
  frame
  exact this _

theorem frame_readString {rbw : Bool} : Frame (readString rbw : R σ _) := by
  have h1 : ∀ k, Frame (vReadByte k : R σ _) := fun _ => frame_vReadByte
  have h2 : Frame (readUnicodeEscapeChar vReadByteSkip : R σ _) := frame_escapeChar fun _ => frame_vReadByteSkip
  have h3 : ∀ b, Frame (readUtf8Multibyte vReadByte b : R σ _) := fun _ => frame_multibyte h1
  have h4 : Frame (readStringEscape : R σ _) := by unfold readStringEscape; frame; exact h1 _
  have h5 : ∀ n, Frame (readStringLoop rbw n : R σ _) := by
    intro n
    induction n with
    | zero => exact All.fail _
    | succ n ih => unfold readStringLoop; frame <;> first | exact h1 _ | exact h3 _
  unfold readString
  frame
  exact h5 _

/-- the same for the state with a counter -/
def FrN (s s' : RState σ × Nat) : Prop := Fr s.1 s'.1
omit [ByteSource σ] in
theorem FrN.pre : Pre' (FrN (σ := σ)) := ⟨fun s => Fr.refl s.1, fun h h' => Fr.trans h h'⟩

theorem frame_consumeNumber {create consume : R σ Unit} {peek : R σ (Option UInt8)} (h1 : Frame create) (h2 : Frame consume) (h3 : Frame peek) :
    Frame (consumeNumber create consume peek) := by
  unfold consumeNumber
  refine All.bind frame_peekByte fun o => All.bind Frame.unwrap fun b => All.bind h1 fun _ => All.bind ?_ fun r => ?_
  · intro s
    haveI := FrN.pre (σ := σ)
    have := all_consumeJsonNumber (P := FrN) (oof := RErr.outOfFuel) (next := numberNext consume peek) (by
      intro s
      unfold numberNext
      dsimp only
      have := (h2.bind fun _ => h3) s.1
      cases hm : (consume >>= fun _ => peek).run s.1 with
      | ok a s' => rw [hm] at this; exact this
      | err e s' => rw [hm] at this; exact this) (fuel s) b (s, 0)
    dsimp only
    cases hm : (JsonNumber.consumeJsonNumber (numberNext consume peek) .outOfFuel (fuel s) b).run (s, 0) with
    | ok a s' => rw [hm] at this; exact this
    | err e s' => rw [hm] at this; exact this
  · frame

end
end Verif.Reader
