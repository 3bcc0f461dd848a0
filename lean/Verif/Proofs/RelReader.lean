import Verif.Proofs.Rel
/-!
# The relational pass over the reader

For each function of the reader model: it gives the same results for two readers related by a `Sim`.
-/

namespace Verif.Sim
open Reader

variable {σ1 σ2 : Type} [ByteSource σ1] [ByteSource σ2] {S : Sim σ1 σ2}

theorem getT {α : Type} {p : Phase} {f1 : RState σ1 → R σ1 α} {f2 : RState σ2 → R σ2 α} {Q : α → Phase}
    (h : ∀ s1 s2, S.RRel p s1 s2 → S.At s1 s2 (f1 s1) (f2 s2) Q) : S.T p (M.get >>= f1) (M.get >>= f2) Q :=
  fun s1 s2 hp => RelAt.get (h s1 s2 hp)

theorem fromK {α : Type} {k : Bool} {m1 : R σ1 α} {m2 : R σ2 α} {Q : α → Phase}
    (h : S.T (.idle false) m1 m2 Q) : S.T (.idle k) m1 m2 Q := RelT.pre h (fun _ _ => weakenI)

theorem toI {α : Type} {p : Phase} {m1 : R σ1 α} {m2 : R σ2 α} {k : Bool}
    (h : S.T p m1 m2 (fun _ => .idle k)) : S.T p m1 m2 (fun _ => .idle false) :=
  RelT.post h (fun _ _ _ => weakenI)

theorem fromV {α : Type} {l : Bool} {m1 : R σ1 α} {m2 : R σ2 α} {Q : α → Phase}
    (h : S.T (.value false false) m1 m2 Q) : S.T (.value false l) m1 m2 Q := RelT.pre h (fun _ _ => weakenV)

theorem toV {α : Type} {p : Phase} {m1 : R σ1 α} {m2 : R σ2 α} {l : Bool}
    (h : S.T p m1 m2 (fun _ => .value false l)) : S.T p m1 m2 (fun _ => .value false false) :=
  RelT.post h (fun _ _ _ => weakenV)

theorem fromH {α : Type} {k b : Bool} {m1 : R σ1 α} {m2 : R σ2 α} {Q : α → Phase}
    (h : S.T (.held false b) m1 m2 Q) : S.T (.held k b) m1 m2 Q := RelT.pre h (fun _ _ => weakenH)

theorem modifyT {p : Phase} {f1 : RState σ1 → RState σ1} {f2 : RState σ2 → RState σ2}
    (h : ∀ s1 s2, S.RRel p s1 s2 → S.RRel p (f1 s1) (f2 s2)) : S.T p (M.modify f1) (M.modify f2) (fun _ => p) :=
  fun s1 s2 hp => RelAt.modify (h s1 s2 hp)

theorem peekByteK {k : Bool} : S.T (.idle k) Reader.peekByte Reader.peekByte (fun _ => .idle true) := fromK (liftS S.peekByte)

theorem peekByteH {b : Bool} : S.T (.held true b) Reader.peekByte Reader.peekByte (fun _ => .held true b) := liftS (S.peekByteHeld b)

theorem skipPeeked : S.T (.idle true) Reader.skipPeekedByte Reader.skipPeekedByte (fun _ => .idle false) :=
  liftS S.skipPeekedByte

theorem readByteT {k : Bool} (kind : SyntaxKind) : S.T (.idle k) (readByte kind) (readByte kind) (fun _ => .idle false) := by
  refine RelT.bind peekByteK fun r => ?_
  cases r with
  | none => exact syntaxErr _ _
  | some b => exact RelT.bind skipPeeked fun _ => pureT _ rfl

theorem checkValidT {p : Phase} [p.NotHeld] (v : Option Bool) (bs : Bytes) : S.T p (checkValid v bs) (checkValid v bs) (fun _ => p) := by
  rcases v with _ | _ | _
  · exact internalPanic (S := S) _ _
  · exact ioErr _ _
  · exact pureT _ rfl

section rb
variable {P Q : Phase} [P.NotHeld] [Q.NotHeld] {rb1 : SyntaxKind → R σ1 UInt8} {rb2 : SyntaxKind → R σ2 UInt8}

theorem readUtf8MultibyteT (hrb : ∀ kind, S.T P (rb1 kind) (rb2 kind) (fun _ => Q))
    (hW : ∀ s1 s2, S.RRel Q s1 s2 → S.RRel P s1 s2) (b0 : UInt8) :
    S.T P (readUtf8Multibyte rb1 b0) (readUtf8Multibyte rb2 b0) (fun _ => Q) := by
  refine RelT.bind (hrb _) fun b1 => ?_
  refine RelT.ite (fun _ => ioErr _ _) fun _ => ?_
  refine RelT.ite (fun _ => checkValidT _ _) fun _ => ?_
  refine RelT.bind (RelT.pre (hrb _) hW) fun b2 => ?_
  refine RelT.ite (fun _ => ioErr _ _) fun _ => ?_
  refine RelT.ite (fun _ => checkValidT _ _) fun _ => ?_
  refine RelT.ite (fun _ => ?_) fun _ => ioErr _ _
  refine RelT.bind (RelT.pre (hrb _) hW) fun b3 => ?_
  exact RelT.ite (fun _ => ioErr _ _) fun _ => checkValidT _ _

theorem parseHexDigitT (b : UInt8) : S.T P (parseHexDigit b) (parseHexDigit b) (fun _ => P) := by
  refine RelT.ite (fun _ => pureT _ rfl) fun _ => ?_
  refine RelT.ite (fun _ => pureT _ rfl) fun _ => ?_
  exact RelT.ite (fun _ => pureT _ rfl) fun _ => syntaxErr _ _

theorem readHexByteT (hrb : ∀ kind, S.T P (rb1 kind) (rb2 kind) (fun _ => P)) :
    S.T P (readHexByte rb1) (readHexByte rb2) (fun _ => P) :=
  RelT.bind (hrb _) fun _ => parseHexDigitT _

theorem readUnicodeEscapeT (hrb : ∀ kind, S.T P (rb1 kind) (rb2 kind) (fun _ => P)) :
    S.T P (readUnicodeEscape rb1) (readUnicodeEscape rb2) (fun _ => P) := by
  refine RelT.bind (readHexByteT hrb) fun _ => ?_
  refine RelT.bind (readHexByteT hrb) fun _ => ?_
  refine RelT.bind (readHexByteT hrb) fun _ => ?_
  exact RelT.bind (readHexByteT hrb) fun _ => pureT _ rfl

theorem escapedCharT (c n : Nat) : S.T P (escapedChar c n) (escapedChar c n) (fun _ => P) :=
  RelT.bind (unwrap _) fun _ => pureT _ rfl

theorem readLowSurrogateT (hrb : ∀ kind, S.T P (rb1 kind) (rb2 kind) (fun _ => P)) (c : Nat) :
    S.T P (readLowSurrogate rb1 c) (readLowSurrogate rb2 c) (fun _ => P) := by
  refine RelT.bind (readUnicodeEscapeT hrb) fun _ => ?_
  exact RelT.ite (fun _ => syntaxErr _ _) fun _ => escapedCharT _ _

theorem readUnicodeEscapeCharT (hrb : ∀ kind, S.T P (rb1 kind) (rb2 kind) (fun _ => P)) :
    S.T P (readUnicodeEscapeChar rb1) (readUnicodeEscapeChar rb2) (fun _ => P) := by
  refine RelT.bind (readUnicodeEscapeT hrb) fun _ => ?_
  refine RelT.ite (fun _ => syntaxErr _ _) fun _ => ?_
  refine RelT.ite (fun _ => ?_) fun _ => escapedCharT _ _
  refine RelT.bind (hrb _) fun _ => ?_
  refine RelT.ite (fun _ => ?_) fun _ => syntaxErr _ _
  refine RelT.bind (hrb _) fun _ => ?_
  exact RelT.ite (fun _ => readLowSurrogateT hrb _) fun _ => syntaxErr _ _

end rb

theorem skipToByteT (b : UInt8) (cr : Bool) : S.T (.idle false) (skipToByte b cr) (skipToByte b cr) (fun _ => .idle false) := by
  refine RelT.ite (fun _ => ?_) fun _ => ?_
  · refine modifyT ?_
    rintro _ _ ⟨hr, pk, e, m, st, sa, l, col, b, pa⟩
    cases cr <;> exact RRel.mk hr ..
  refine RelT.ite (fun _ => ?_) fun _ => ?_
  · refine modifyT ?_
    rintro _ _ ⟨hr, pk, e, m, st, sa, l, col, b, pa⟩
    exact RRel.mk hr ..
  refine RelT.ite (fun _ => advance _ _) fun _ => ?_
  exact RelT.bind (readUtf8MultibyteT (fun k => readByteT k) (fun _ _ h => h) b) fun _ => advance _ _

theorem skipToLoopT (stop : UInt8 → Bool) (eof : Option SyntaxKind) :
    ∀ (f1 f2 : Nat) (_ : S.FuelLe f1 f2) (k cr : Bool),
      S.T (.idle k) (skipToLoop stop eof f1 cr) (skipToLoop stop eof f2 cr) (fun _ => .idle true) := by
  intro f1
  induction f1 with
  | zero => intro f2 _ k cr; exact outOfFuel ‹_› (by rintro rfl; rfl) _
  | succ f1 ih =>
    intro f2 hf k cr
    obtain ⟨f2, rfl, hf'⟩ := hf.succ
    refine RelT.bind peekByteK fun r => ?_
    cases r with
    | none =>
      cases eof with
      | none => exact pureT _ rfl
      | some _ => exact syntaxErr _ _
    | some b =>
      refine RelT.ite (fun _ => pureT _ rfl) fun _ => ?_
      refine RelT.ite (fun _ => syntaxErr _ _) fun _ => ?_
      refine RelT.bind skipPeeked fun _ => ?_
      refine RelT.bind (skipToByteT _ _) fun _ => ?_
      exact ih f2 hf' _ _

theorem skipToT {k : Bool} (stop : UInt8 → Bool) (eof : Option SyntaxKind) :
    S.T (.idle k) (skipTo stop eof) (skipTo stop eof) (fun _ => .idle true) :=
  getT fun _ _ h => skipToLoopT stop eof _ _ (fuel_le h) _ _ _ _ h

theorem skipToBlockCommentEndT : ∀ (f1 f2 : Nat) (_ : S.FuelLe f1 f2) (k : Bool),
    S.T (.idle k) (skipToBlockCommentEnd f1) (skipToBlockCommentEnd f2) (fun _ => .idle false) := by
  intro f1
  induction f1 with
  | zero => intro f2 _ k; exact outOfFuel ‹_› (by rintro rfl; rfl) _
  | succ f1 ih =>
    intro f2 hf k
    obtain ⟨f2, rfl, hf'⟩ := hf.succ
    refine RelT.bind (skipToT _ _) fun _ => ?_
    refine RelT.bind (advance _ _) fun _ => ?_
    refine RelT.bind skipPeeked fun _ => ?_
    refine RelT.bind peekByteK fun r => ?_
    cases r with
    | none => exact syntaxErr _ _
    | some b =>
      refine RelT.ite (fun _ => ?_) fun _ => ih f2 hf' _
      exact RelT.bind skipPeeked fun _ => advance _ _

theorem skipCommentT (eof : Option SyntaxKind) :
    S.T (.idle true) (skipComment eof) (skipComment eof) (fun _ => .idle false) := by
  refine RelT.bind skipPeeked fun _ => ?_
  refine RelT.bind (advance _ _) fun _ => ?_
  refine RelT.bind (readByteT _) fun _ => ?_
  refine RelT.ite (fun _ => ?_) fun _ => ?_
  · refine RelT.bind (advance _ _) fun _ => ?_
    exact getT fun _ _ h => skipToBlockCommentEndT _ _ (fuel_le h) _ _ _ h
  refine RelT.ite (fun _ => ?_) fun _ => syntaxErr _ _
  refine RelT.bind (advance _ _) fun _ => ?_
  exact toI (skipToT _ _)

theorem skipWhitespaceLoopT (eof : Option SyntaxKind) : ∀ (f1 f2 : Nat) (_ : S.FuelLe f1 f2) (k : Bool),
    S.T (.idle k) (skipWhitespaceLoop eof f1) (skipWhitespaceLoop eof f2) (fun _ => .idle true) := by
  intro f1
  induction f1 with
  | zero => intro f2 _ k; exact outOfFuel ‹_› (by rintro rfl; rfl) _
  | succ f1 ih =>
    intro f2 hf k
    obtain ⟨f2, rfl, hf'⟩ := hf.succ
    refine RelT.bind (skipToT _ _) fun _ => ?_
    refine RelT.bind peekByteK fun r => ?_
    cases r with
    | none =>
      cases eof with
      | none => exact pureT _ rfl
      | some _ => exact syntaxErr _ _
    | some b =>
      refine RelT.ite (fun _ => ?_) fun _ => pureT _ rfl
      refine getT ?_
      rintro _ _ ⟨hr, pk, e, m, st, sa, l, col, b, pa⟩
      dsimp only
      cases h1 : S.set1.allowComments with
      | true =>
        rw [S.comments h1]
        exact RelT.bind (skipCommentT _) (fun _ => ih f2 hf' _) _ _ (RRel.mk hr ..)
      | false =>
        cases h2 : S.set2.allowComments with
        | false => exact syntaxErr _ _ _ _ (RRel.mk hr ..)
        | true => exact RelAt.left rfl (S.commentsX h1 h2 _)

theorem skipWhitespaceT {k : Bool} (eof : Option SyntaxKind) :
    S.T (.idle k) (skipWhitespace eof) (skipWhitespace eof) (fun _ => .idle true) :=
  getT fun _ _ h => skipWhitespaceLoopT eof _ _ (fuel_le h) _ _ _ h

theorem skipWhitespaceNoEofT {k : Bool} (eof : SyntaxKind) :
    S.T (.idle k) (skipWhitespaceNoEof eof) (skipWhitespaceNoEof eof) (fun _ => .idle true) :=
  RelT.bind (skipWhitespaceT _) fun _ => unwrap _

theorem verifyValueSeparatorG {P P' : Phase} (hp : S.T P Reader.peekByte Reader.peekByte (fun _ => P')) (kind : SyntaxKind)
    (hk : P'.NotHeld ∨ kind = .trailingDataAfterNumber) : S.T P (verifyValueSeparator kind) (verifyValueSeparator kind) (fun _ => P') := by
  refine RelT.bind hp fun r => ?_
  cases r with
  | none => exact pureT _ rfl
  | some b => exact RelT.ite (fun _ => pureT _ rfl) fun _ => syntaxErr' _ _ hk

theorem consumeLiteralBytesT : ∀ (bs : Bytes), 
    S.T (.idle false) (consumeLiteralBytes bs) (consumeLiteralBytes bs) (fun _ => .idle false) := by
  intro bs
  induction bs with
  | nil => exact pureT _ rfl
  | cons b bs ih =>
    refine RelT.bind (readByteT _) fun _ => ?_
    exact RelT.ite (fun _ => syntaxErr _ _) fun _ => ih

theorem consumeLiteralT {k : Bool} (bs : Bytes) :
    S.T (.idle k) (consumeLiteral bs) (consumeLiteral bs) (fun _ => .idle true) :=
  RelT.bind (fromK (consumeLiteralBytesT _)) fun _ => verifyValueSeparatorG peekByteK _ (.inl inferInstance)

theorem afterNameT {k : Bool} : S.T (.idle k) afterName afterName (fun _ => .idle false) := by
  refine RelT.bind (skipWhitespaceNoEofT _) fun _ => ?_
  refine RelT.ite (fun _ => ?_) fun _ => syntaxErr _ _
  exact RelT.bind skipPeeked fun _ => advance _ _

theorem classifyT (b : UInt8) : S.T (.idle true) (classify b) (classify b) (fun _ => .idle true) := by
  refine getT ?_
  intro s1 s2 hs
  obtain ⟨hr, pk, e, m, st, sa, l, col, bp, pa⟩ := hs
  have hs := RRel.mk hr pk e m st sa l col bp pa
  dsimp only
  refine RelAt.ite (fun _ => ?_) fun _ => ?_
  · refine RelAt.ite (fun _ => RelAt.pure _ hs) fun _ => ?_
    exact RelAt.ite (fun _ => RelAt.pure _ hs) fun _ => syntaxErr _ _ _ _ hs
  refine RelAt.ite (fun _ => RelAt.pure _ hs) fun _ => ?_
  refine RelAt.ite (fun _ => ?_) fun _ => ?_
  · exact RelAt.ite (fun _ => syntaxErr _ _ _ _ hs) fun _ => RelAt.pure _ hs
  refine RelAt.ite (fun _ => RelAt.pure _ hs) fun _ => ?_
  refine RelAt.ite (fun _ => syntaxErr _ _ _ _ hs) fun _ => ?_
  refine RelAt.ite (fun _ => RelAt.pure _ hs) fun _ => ?_
  refine RelAt.ite (fun _ => RelAt.pure _ hs) fun _ => ?_
  refine RelAt.ite (fun _ => RelT.bind (consumeLiteralT _) (fun _ => pureP _) _ _ hs) fun _ => ?_
  refine RelAt.ite (fun _ => RelT.bind (consumeLiteralT _) (fun _ => pureP _) _ _ hs) fun _ => ?_
  refine RelAt.ite (fun _ => RelT.bind (consumeLiteralT _) (fun _ => pureP _) _ _ hs) fun _ => ?_
  refine RelAt.ite (fun _ => syntaxErr _ _ _ _ hs) fun _ => ?_
  exact RelAt.ite (fun _ => syntaxErr _ _ _ _ hs) fun _ => syntaxErr _ _ _ _ hs

theorem setPeekedT (p : Peeked × Bool) : S.T (.idle true)
    (do (if p.2 then Reader.skipPeekedByte else pure ())
        M.modify fun s => { s with peeked := some p.1 }
        pure (some p.1) : R σ1 (Option Peeked))
    (do (if p.2 then Reader.skipPeekedByte else pure ())
        M.modify fun s => { s with peeked := some p.1 }
        pure (some p.1) : R σ2 (Option Peeked)) (fun _ => .idle false) := by
  refine RelT.bind (Q := fun _ => S.RRel (.idle false)) ?_ fun _ => ?_
  · exact RelT.ite (fun _ => skipPeeked) fun _ => fromK (pureT _ rfl)
  · refine RelT.bind (modifyT ?_) fun _ => pureT _ rfl
    rintro _ _ ⟨hr, pk, e, m, st, sa, l, col, b, pa⟩
    exact RRel.mk hr ..

theorem finishPeekT (c : Bool) (comma : Option (Nat × Nat × Nat)) (p : Peeked × Bool) :
    S.T (.idle true) (finishPeek c comma p) (finishPeek c comma p) (fun _ => .idle false) := by
  refine getT ?_
  intro s1 s2 hs
  obtain ⟨hr, pk, e, m, st, sa, l, col, bp, pa⟩ := hs
  have hs := RRel.mk hr pk e m st sa l col bp pa
  dsimp only
  refine RelAt.ite (fun _ => ?_) fun _ => ?_
  · rcases comma with _ | ⟨x, y, z⟩
    · exact setPeekedT p _ _ hs
    · dsimp only
      cases h1 : S.set1.allowTrailingComma with
      | true =>
        rw [S.trailingComma h1]
        exact setPeekedT p _ _ hs
      | false =>
        cases h2 : S.set2.allowTrailingComma with
        | false =>
          exact RelAt.bind (Q := fun _ => S.RRel (.idle true)) (RelAt.set (RRel.mk hr ..)) fun _ => syntaxErr _ _
        | true => exact RelAt.left rfl (S.trailingCommaX h1 h2 _)
  · exact RelAt.ite (fun _ => syntaxErr _ _ _ _ hs) fun _ => setPeekedT p _ _ hs

theorem peekTokenT {k : Bool} : S.T (.idle k) peekToken peekToken (fun _ => .idle false) := by
  refine RelT.bind (skipWhitespaceT _) fun r => ?_
  cases r with
  | none => exact fromK (pureT _ rfl)
  | some b =>
    refine getT ?_
    intro s1 s2 hs
    obtain ⟨hr, pk, e, m, st, sa, l, col, bp, pa⟩ := hs
    have hs := RRel.mk hr pk e m st sa l col bp pa
    dsimp only
    refine RelAt.ite (fun _ => ?_) fun _ => ?_
    · refine RelAt.ite (fun _ => syntaxErr _ _ _ _ hs) fun _ => ?_
      refine RelT.bind skipPeeked (fun _ => ?_) _ _ hs
      refine RelT.bind (advance _ _) fun _ => ?_
      refine RelT.bind (skipWhitespaceNoEofT _) fun _ => ?_
      refine RelT.bind (classifyT _) fun _ => ?_
      exact finishPeekT _ _ _
    · exact RelT.bind (classifyT _) (fun _ => finishPeekT _ _ _) _ _ hs

theorem peekInternalOptionalT : S.T (.idle false) peekInternalOptional peekInternalOptional (fun _ => .idle false) := by
  refine getT ?_
  intro s1 s2 hs
  obtain ⟨hr, pk, e, m, st, sa, l, col, bp, pa⟩ := hs
  have hs := RRel.mk hr pk e m st sa l col bp pa
  dsimp only
  refine RelAt.ite (fun _ => usagePanic _ _ _ _ hs) fun _ => ?_
  refine RelAt.ite (fun _ => RelAt.pure _ hs) fun _ => ?_
  have hrest : ∀ {s1 : RState σ1} {s2 : RState σ2}, S.RRel (.idle false) s1 s2 → S.At s1 s2
      (if isInObject s1 && !s1.expectsMemberName then do afterName; peekToken else peekToken)
      (if isInObject s2 && !s2.expectsMemberName then do afterName; peekToken else peekToken)
      (fun _ => .idle false) := by
    rintro _ _ ⟨hr, pk, e, m, st, sa, l, col, bp, pa⟩
    have hs := RRel.mk hr pk e m st sa l col bp pa
    exact RelAt.ite (fun _ => RelT.bind afterNameT (fun _ => peekTokenT) _ _ hs) fun _ => peekTokenT _ _ hs
  cases h1 : S.set1.allowMultipleTopLevel with
  | true =>
    rw [S.multi h1]
    exact RelAt.ite (fun _ => usagePanic _ _ _ _ hs) fun _ => hrest hs
  | false =>
    cases h2 : S.set2.allowMultipleTopLevel with
    | false => exact RelAt.ite (fun _ => usagePanic _ _ _ _ hs) fun _ => hrest hs
    | true =>
      cases hb : (!e && st.isEmpty) with
      | false =>
        simp only [isBehindTopLevel, hb, Bool.false_and, Bool.false_eq_true, if_false]
        exact hrest hs
      | true =>
        simp only [isBehindTopLevel, hb, Bool.not_false, Bool.not_true, Bool.and_true, if_true]
        exact RelAt.left rfl ((S.multiX h1 h2).1 _)

theorem peekInternalT : S.T (.idle false) peekInternal peekInternal (fun _ => .idle false) := by
  refine RelT.bind peekInternalOptionalT fun r => ?_
  cases r with
  | some p => exact pureP _
  | none =>
    refine getT ?_
    rintro _ _ ⟨hr, pk, e, m, st, sa, l, col, bp, pa⟩
    have hs := RRel.mk hr pk e m st sa l col bp pa
    dsimp only
    cases h1 : S.set1.allowMultipleTopLevel with
    | true =>
      rw [S.multi h1]
      exact RelAt.ite (fun _ => structureErr _ _ _ _ hs) fun _ => syntaxErr _ _ _ _ hs
    | false =>
      cases h2 : S.set2.allowMultipleTopLevel with
      | false => exact RelAt.ite (fun _ => structureErr _ _ _ _ hs) fun _ => syntaxErr _ _ _ _ hs
      | true =>
        rw [Bool.and_false]
        exact RelAt.left rfl ((S.multiX h1 h2).2 _)

theorem mapPeekedT (p : Peeked) : S.T (.idle false) (mapPeeked p) (mapPeeked p) (fun _ => .idle false) := by
  cases p
  case arrayEnd => exact structureErr _ _
  case objectEnd => exact internalPanic (S := S) _ _
  case nameStart => exact internalPanic (S := S) _ _
  all_goals exact pureP _

theorem consumePeekedT : S.T (.idle false) consumePeeked consumePeeked (fun _ => .idle false) := by
  refine getT ?_
  rintro _ _ ⟨hr, pk, e, m, st, sa, l, col, bp, pa⟩
  have hs := RRel.mk hr pk e m st sa l col bp pa
  dsimp only
  cases pk with
  | none => exact .inr ⟨rfl, .of_panic id id⟩
  | some p => exact RelAt.set (RRel.mk hr ..)

theorem startExpectedValueTypeT (t : ValueType) (d : Bool) :
    S.T (.idle false) (startExpectedValueType t d) (startExpectedValueType t d) (fun _ => .idle false) := by
  refine getT ?_
  rintro _ _ ⟨hr, pk, e, m, st, sa, l, col, bp, pa⟩
  have hs := RRel.mk hr pk e m st sa l col bp pa
  dsimp only
  refine RelAt.ite (fun _ => usagePanic _ _ _ _ hs) fun _ => ?_
  refine RelT.bind peekInternalT (fun p => ?_) _ _ hs
  refine RelT.bind (mapPeekedT p) fun q => ?_
  refine getT ?_
  rintro _ _ ⟨hr, pk, e, m, st, sa, l, col, bp, pa⟩
  have hs := RRel.mk hr pk e m st sa l col bp pa
  refine RelAt.ite (fun _ => ?_) fun _ => RelAt.fail _ (.of_nonfatal hs id)
  have hok : S.T (.idle false) (do consumePeeked; pure p : R σ1 Peeked) (do consumePeeked; pure p : R σ2 Peeked)
      (fun _ => .idle false) := RelT.bind consumePeekedT fun _ => pureP _
  cases d with
  | false => exact hok _ _ hs
  | true =>
    rw [if_pos rfl, if_pos rfl]
    unfold depthExceeded
    dsimp only
    cases h1 : S.set1.maxNestingDepth with
    | none =>
      cases h2 : S.set2.maxNestingDepth with
      | none => exact hok _ _ hs
      | some m2 =>
        obtain ⟨m1, h, _⟩ := S.depth _ h2
        rw [h1] at h
        cases h
    | some m1 =>
      dsimp only
      by_cases hd : m1 ≤ st.length
      · rw [if_pos hd]
        rcases S.depthX _ h1 with h2 | hX
        · rw [h2]
          dsimp only
          rw [if_pos hd]
          exact RelAt.fail _ (.of_nonfatal hs id)
        · exact RelAt.left rfl (hX _ _)
      · rw [if_neg hd]
        cases h2 : S.set2.maxNestingDepth with
        | none => exact hok _ _ hs
        | some m2 =>
          obtain ⟨m1', h, hle⟩ := S.depth _ h2
          rw [h1] at h
          cases h
          dsimp only
          rw [if_neg (by omega)]
          exact hok _ _ hs

theorem onContainerStartT (t : ValueType) (v : StackValue) :
    S.T (.idle false) (onContainerStart t v) (onContainerStart t v) (fun _ => .idle false) := by
  refine RelT.bind (startExpectedValueTypeT _ _) fun _ => modifyT ?_
  rintro _ _ ⟨hr, pk, e, m, st, sa, l, col, b, pa⟩
  exact RRel.mk hr ..

theorem onValueEndT {p : Phase} : S.T p onValueEnd onValueEnd (fun _ => p) := by
  refine getT ?_
  rintro _ _ ⟨hr, pk, e, m, st, sa, l, col, bp, pa⟩
  have hs := RRel.mk hr pk e m st sa l col bp pa
  refine RelAt.bind (Q := fun _ => S.RRel p) ?_ fun pa' => ?_
  · unfold isInArray
    dsimp only
    cases st.head? == some .array with
    | false => exact RelAt.pure _ hs
    | true =>
      rcases pa with _ | _ | ⟨_ | _, ps⟩
      · exact RelAt.pure _ hs
      · exact internalPanic _ (fun _ => p) _ _ hs
      · exact RelAt.pure _ hs
      · exact internalPanic _ (fun _ => p) _ _ hs
  · exact fun _ _ _ => RelAt.set (RRel.mk hr ..)

theorem onContainerEndT : S.T (.idle false) onContainerEnd onContainerEnd (fun _ => .idle false) := by
  refine RelT.bind (modifyT ?_) fun _ => onValueEndT
  rintro _ _ ⟨hr, pk, e, m, st, sa, l, col, b, pa⟩
  exact RRel.mk hr ..

theorem readStringBytesT : S.T (.idle false) readStringBytes readStringBytes (fun _ => .idle false) := by
  refine RelT.bind (readByteT _) fun b => ?_
  refine RelT.ite (fun _ => ?_) fun _ => ?_
  · refine RelT.bind (readByteT _) fun b => ?_
    dsimp only
    cases simpleEscape b with
    | some b => exact RelT.bind (advance _ _) fun _ => pureP _
    | none =>
      refine RelT.ite (fun _ => ?_) fun _ => syntaxErr _ _
      refine RelT.bind (readUnicodeEscapeCharT fun k => readByteT k) fun _ => ?_
      exact RelT.bind (advance _ _) fun _ => pureP _
  refine RelT.ite (fun _ => RelT.bind (advance _ _) fun _ => pureP _) fun _ => ?_
  refine RelT.ite (fun _ => syntaxErr _ _) fun _ => ?_
  refine RelT.ite (fun _ => RelT.bind (advance _ _) fun _ => pureP _) fun _ => ?_
  refine RelT.bind (readUtf8MultibyteT (fun k => readByteT k) (fun _ _ h => h) b) fun _ => ?_
  exact RelT.bind (advance _ _) fun _ => pureP _

theorem skipAllStringBytesLoopT : ∀ (f1 f2 : Nat) (_ : S.FuelLe f1 f2),
    S.T (.idle false) (skipAllStringBytesLoop f1) (skipAllStringBytesLoop f2) (fun _ => .idle false) := by
  intro f1
  induction f1 with
  | zero => intro f2 _; exact outOfFuel ‹_› (by rintro rfl; rfl) _
  | succ f1 ih =>
    intro f2 hf
    obtain ⟨f2, rfl, hf'⟩ := hf.succ
    refine RelT.bind readStringBytesT fun _ => ?_
    exact RelT.ite (fun _ => pureP _) fun _ => ih f2 hf'

theorem skipAllStringBytesT : S.T (.idle false) skipAllStringBytes skipAllStringBytes (fun _ => .idle false) :=
  getT fun _ _ h => skipAllStringBytesLoopT _ _ (fuel_le h) _ _ h

theorem vPeekT {l : Bool} : S.T (.value false l) Reader.vPeek Reader.vPeek (fun _ => .value true false) :=
  fromV (liftS S.vPeek)

theorem vReadByteT {l : Bool} (kind : SyntaxKind) :
    S.T (.value false l) (vReadByte kind) (vReadByte kind) (fun _ => .value false true) := by
  refine RelT.bind vPeekT fun r => ?_
  cases r with
  | none => exact syntaxErr _ _
  | some b => exact RelT.bind (liftS S.vConsume) fun _ => pureP _

theorem vReadByteSkipT {l : Bool} (kind : SyntaxKind) :
    S.T (.value false l) (vReadByteSkip kind) (vReadByteSkip kind) (fun _ => .value false false) := by
  refine RelT.bind (vReadByteT _) fun b => ?_
  exact RelT.bind (liftS S.vSkipPrevious) fun _ => pureP _

theorem readStringEscapeT : S.T (.value false true) readStringEscape readStringEscape (fun _ => .value false false) := by
  refine RelT.bind (liftS S.vSkipPrevious) fun _ => ?_
  refine RelT.bind (vReadByteT _) fun b => ?_
  dsimp only
  cases simpleEscape b with
  | some b' =>
    refine RelT.ite (fun _ => toV (advance _ _)) fun _ => ?_
    refine RelT.bind (liftS S.vSkipPrevious) fun _ => ?_
    exact RelT.bind (liftS (S.vPush _)) fun _ => advance _ _
  | none =>
    refine RelT.ite (fun _ => ?_) fun _ => syntaxErr _ _
    refine RelT.bind (liftS S.vSkipPrevious) fun _ => ?_
    refine RelT.bind (readUnicodeEscapeCharT fun k => vReadByteSkipT k) fun _ => ?_
    refine RelT.bind (advance _ _) fun _ => ?_
    exact RelT.bind (liftS (S.vPush _)) fun _ => advance _ _

theorem readStringLoopT (b : Bool) : ∀ (f1 f2 : Nat) (_ : S.FuelLe f1 f2) (l : Bool),
    S.T (.value false l) (readStringLoop b f1) (readStringLoop b f2) (fun _ => .held false b) := by
  intro f1
  induction f1 with
  | zero => intro f2 _ _; exact outOfFuel ‹_› (by rintro rfl; rfl) _
  | succ f1 ih =>
    intro f2 hf l
    obtain ⟨f2, rfl, hf'⟩ := hf.succ
    refine RelT.bind (vReadByteT _) fun byte => ?_
    refine RelT.ite (fun _ => RelT.bind readStringEscapeT fun _ => ih f2 hf' _) fun _ => ?_
    refine RelT.ite (fun _ => ?_) fun _ => ?_
    · refine RelT.bind (advance _ _) fun _ => ?_
      exact RelT.bind (liftS S.vSkipFinal) fun _ => liftS (S.vGetFinal b)
    refine RelT.ite (fun _ => syntaxErr _ _) fun _ => ?_
    refine RelT.ite (fun _ => RelT.bind (advance _ _) fun _ => ih f2 hf' _) fun _ => ?_
    refine RelT.bind (RelT.pre (readUtf8MultibyteT (P := .value false false) (Q := .value false true)
      (fun k => vReadByteT k) (fun _ _ => weakenV) byte) (fun _ _ => weakenV)) fun _ => ?_
    exact RelT.bind (advance _ _) fun _ => ih f2 hf' _

theorem readStringT (b : Bool) : S.T (.idle false) (readString b) (readString b) (fun _ => .held false b) := by
  refine RelT.bind (liftS (S.vNew _)) fun _ => ?_
  exact getT fun _ _ h => readStringLoopT b _ _ (fuel_le h) _ _ _ h

end Verif.Sim

/-! ## Numbers -/
namespace Verif.JsonNumber
variable {ε S1 S2 : Type} {X : ε → Prop} {I : ε → S1 → S2 → Prop} {P : S1 → S2 → Prop} {n1 : M ε S1 (Option UInt8)} {n2 : M ε S2 (Option UInt8)}
  {oof : ε}

/-- fuel for the loops of `consume_json_number` -/
def FLe (X : ε → Prop) (oof : ε) (f1 f2 : Nat) : Prop := f1 = f2 ∨ (f1 ≤ f2 ∧ X oof)

theorem FLe.succ {f1 f2 : Nat} (h : FLe X oof (f1 + 1) f2) : ∃ n, f2 = n + 1 ∧ FLe X oof f1 n := by
  rcases h with h | ⟨h, hx⟩
  · exact ⟨f1, h.symm, .inl rfl⟩
  · exact ⟨f2 - 1, by omega, .inr ⟨by omega, hx⟩⟩

theorem FLe.zero {α : Type} {f2 : Nat} (h : FLe X oof 0 f2) (hF : ∀ s1 s2, I oof s1 s2) {m2 : M ε S2 α} (hm : f2 = 0 → m2 = M.fail oof)
    {Q : α → S1 → S2 → Prop} : RelT X I P (M.fail oof) m2 Q := by
  intro s1 s2 _
  rcases h with rfl | ⟨_, hx⟩
  · rw [hm rfl]
    exact .inr ⟨rfl, hF _ _⟩
  · exact RelAt.left rfl hx

section
variable (hn : RelT X I P n1 n2 (fun _ => P)) (hF : ∀ s1 s2, I oof s1 s2)
include hn hF

theorem consumeDigitsT : ∀ (f1 f2 : Nat), FLe X oof f1 f2 →
    RelT X I P (consumeDigits n1 oof f1) (consumeDigits n2 oof f2) (fun _ => P) := by
  intro f1
  induction f1 with
  | zero => intro f2 h; exact h.zero hF (by rintro rfl; rfl)
  | succ f1 ih =>
    intro f2 h0
    obtain ⟨f2, rfl, h⟩ := h0.succ
    refine RelT.bind hn fun r => ?_
    cases r with
    | none => exact RelT.pure _ (fun _ _ h => h)
    | some b => exact RelT.ite (fun _ => ih _ h) fun _ => RelT.pure _ (fun _ _ h => h)

theorem consumeExpDigitsT : ∀ (f1 f2 c : Nat), FLe X oof f1 f2 →
    RelT X I P (consumeExpDigits n1 oof f1 c) (consumeExpDigits n2 oof f2 c) (fun _ => P) := by
  intro f1
  induction f1 with
  | zero => intro f2 c h; exact h.zero hF (by rintro rfl; rfl)
  | succ f1 ih =>
    intro f2 c h0
    obtain ⟨f2, rfl, h⟩ := h0.succ
    refine RelT.bind hn fun r => ?_
    cases r with
    | none => exact RelT.pure _ (fun _ _ h => h)
    | some b => exact RelT.ite (fun _ => ih _ _ h) fun _ => RelT.pure _ (fun _ _ h => h)

omit hn hF in
theorem finishT (c : Nat) (b : UInt8) : RelT X I P (finish c b) (finish c b) (fun _ => P) :=
  RelT.ite (fun _ => RelT.pure _ (fun _ _ h => h)) fun _ => RelT.pure _ (fun _ _ h => h)

theorem exponentDigitsT (f1 f2 : Nat) (h : FLe X oof f1 f2) (b : UInt8) :
    RelT X I P (exponentDigits n1 oof f1 b) (exponentDigits n2 oof f2 b) (fun _ => P) := by
  refine RelT.ite (fun _ => ?_) fun _ => RelT.pure _ (fun _ _ h => h)
  refine RelT.bind (consumeExpDigitsT hn hF _ _ _ h) fun r => ?_
  rcases r with ⟨c, _ | b⟩
  · exact RelT.pure _ (fun _ _ h => h)
  · exact finishT _ _

theorem exponentPartT (f1 f2 : Nat) (h : FLe X oof f1 f2) (b : UInt8) :
    RelT X I P (exponentPart n1 oof f1 b) (exponentPart n2 oof f2 b) (fun _ => P) := by
  refine RelT.ite (fun _ => ?_) fun _ => finishT _ _
  refine RelT.bind hn fun r => ?_
  cases r with
  | none => exact RelT.pure _ (fun _ _ h => h)
  | some b =>
    refine RelT.ite (fun _ => ?_) fun _ => exponentDigitsT hn hF _ _ h _
    refine RelT.bind hn fun r => ?_
    cases r with
    | none => exact RelT.pure _ (fun _ _ h => h)
    | some b => exact exponentDigitsT hn hF _ _ h _

theorem fractionPartT (f1 f2 : Nat) (h : FLe X oof f1 f2) (b : UInt8) :
    RelT X I P (fractionPart n1 oof f1 b) (fractionPart n2 oof f2 b) (fun _ => P) := by
  refine RelT.ite (fun _ => ?_) fun _ => exponentPartT hn hF _ _ h _
  refine RelT.bind hn fun r => ?_
  cases r with
  | none => exact RelT.pure _ (fun _ _ h => h)
  | some b =>
    refine RelT.ite (fun _ => ?_) fun _ => RelT.pure _ (fun _ _ h => h)
    refine RelT.bind (consumeDigitsT hn hF _ _ h) fun r => ?_
    cases r with
    | none => exact RelT.pure _ (fun _ _ h => h)
    | some b => exact exponentPartT hn hF _ _ h _

theorem integerPartT (f1 f2 : Nat) (h : FLe X oof f1 f2) (b : UInt8) :
    RelT X I P (integerPart n1 oof f1 b) (integerPart n2 oof f2 b) (fun _ => P) := by
  refine RelT.ite (fun _ => ?_) fun _ => RelT.ite (fun _ => ?_) fun _ => RelT.pure _ (fun _ _ h => h)
  · refine RelT.bind (consumeDigitsT hn hF _ _ h) fun r => ?_
    cases r with
    | none => exact RelT.pure _ (fun _ _ h => h)
    | some b => exact fractionPartT hn hF _ _ h _
  · refine RelT.bind hn fun r => ?_
    cases r with
    | none => exact RelT.pure _ (fun _ _ h => h)
    | some b => exact fractionPartT hn hF _ _ h _

theorem consumeJsonNumberT (f1 f2 : Nat) (h : FLe X oof f1 f2) (b : UInt8) :
    RelT X I P (consumeJsonNumber n1 oof f1 b) (consumeJsonNumber n2 oof f2 b) (fun _ => P) := by
  refine RelT.ite (fun _ => ?_) fun _ => integerPartT hn hF _ _ h _
  refine RelT.bind hn fun r => ?_
  cases r with
  | none => exact RelT.pure _ (fun _ _ h => h)
  | some b => exact integerPartT hn hF _ _ h _

end
end Verif.JsonNumber

namespace Verif.Sim
open Reader
variable {σ1 σ2 : Type} [ByteSource σ1] [ByteSource σ2] {S : Sim σ1 σ2}

/-- states while a number is consumed -/
def NRel (S : Sim σ1 σ2) (p : Phase) (s1 : RState σ1 × Nat) (s2 : RState σ2 × Nat) : Prop :=
  S.RRel p s1.1 s2.1 ∧ s1.2 = s2.2

theorem numberNextT {p q : Phase} {c1 : R σ1 Unit} {c2 : R σ2 Unit} {pk1 : R σ1 (Option UInt8)} {pk2 : R σ2 (Option UInt8)}
    (hc : S.T p c1 c2 (fun _ => q)) (hp : S.T q pk1 pk2 (fun _ => p)) :
    RelT S.X (fun e s1 s2 => S.ERel e s1.1 s2.1) (S.NRel p) (numberNext c1 pk1) (numberNext c2 pk2)
      (fun _ => S.NRel p) := by
  rintro ⟨s1, n1⟩ ⟨s2, n2⟩ ⟨hs, hn⟩
  cases hn
  have h : S.At s1 s2 (do c1; pk1) (do c2; pk2) (fun _ => p) := RelT.bind hc (fun _ => hp) s1 s2 hs
  unfold At RelAt at h
  unfold RelAt numberNext
  dsimp only
  cases h1 : M.run (do c1; pk1) s1 <;> cases h2 : M.run (do c2; pk2) s2 <;> rw [h1, h2] at h
  · exact ⟨h.1, h.2, rfl⟩
  · exact h
  · exact h
  · exact h

theorem consumeNumberT {p q : Phase} {cr1 : R σ1 Unit} {cr2 : R σ2 Unit} {c1 : R σ1 Unit} {c2 : R σ2 Unit}
    {pk1 : R σ1 (Option UInt8)} {pk2 : R σ2 (Option UInt8)}
    [p.NotHeld] (hcr : S.T (.idle true) cr1 cr2 (fun _ => p))
    (hc : S.T p c1 c2 (fun _ => q)) (hp : S.T q pk1 pk2 (fun _ => p)) :
    S.T (.idle false) (consumeNumber cr1 c1 pk1) (consumeNumber cr2 c2 pk2) (fun _ => p) := by
  refine RelT.bind peekByteK fun r => ?_
  refine RelT.bind (unwrap _) fun b => ?_
  refine RelT.bind hcr fun _ => ?_
  refine RelT.bind (Q := fun _ => S.RRel p) ?_ fun r => ?_
  · intro s1 s2 hs
    have h := JsonNumber.consumeJsonNumberT (numberNextT hc hp) (oof := RErr.outOfFuel) (fun _ _ => .of_panic id id) (fuel s1) (fuel s2) (fuel_le hs) b
      (s1, 0) (s2, 0) ⟨hs, rfl⟩
    unfold RelAt at h ⊢
    dsimp only
    revert h
    cases (JsonNumber.consumeJsonNumber (numberNext c1 pk1) .outOfFuel (fuel s1) b).run (s1, 0) <;>
      cases (JsonNumber.consumeJsonNumber (numberNext c2 pk2) .outOfFuel (fuel s2) b).run (s2, 0) <;> intro h
    · rename_i a1 t1 a2 t2
      obtain ⟨rfl, h, hn⟩ := h
      dsimp only
      exact ⟨by rw [hn], h⟩
    · exact h
    · exact h
    · exact h
  · rcases r with ⟨_ | c, n⟩
    · exact syntaxErr _ _
    · exact pureP _

theorem finishNumberG {P P' : Phase} (hp : S.T P Reader.peekByte Reader.peekByte (fun _ => P')) (n : Nat) :
    S.T P (finishNumber n) (finishNumber n) (fun _ => P') := by
  refine RelT.bind (advance _ _) fun _ => ?_
  exact RelT.bind (verifyValueSeparatorG hp _ (.inr rfl)) fun _ => onValueEndT

theorem readNumberBytesT (b : Bool) : S.T (.idle false) (readNumberBytes b) (readNumberBytes b) (fun _ => .held true b) := by
  refine RelT.bind (startExpectedValueTypeT _ _) fun _ => ?_
  refine RelT.bind (consumeNumberT (p := .value true false) (liftS (S.vNew true)) (liftS S.vConsume) vPeekT) fun r => ?_
  rcases r with ⟨c, n⟩
  refine getT ?_
  rintro _ _ ⟨hr, pk, e, m, st, sa, l, col, bp, pa⟩
  have hs := RRel.mk hr pk e m st sa l col bp pa
  dsimp only
  have hrest : S.T (.value true false) (do Reader.liftS (ByteSource.vGet b); finishNumber n : R σ1 Unit)
      (do Reader.liftS (ByteSource.vGet b); finishNumber n : R σ2 Unit) (fun _ => .held true b) :=
    RelT.bind (liftS (S.vGet b)) fun _ => finishNumberG peekByteH _
  cases h1 : S.set1.restrictNumberValues with
  | false =>
    have h2 : S.set2.restrictNumberValues = false := by
      cases h2 : S.set2.restrictNumberValues with
      | false => rfl
      | true => rw [S.restrict h2] at h1; cases h1
    rw [h2]
    exact hrest _ _ hs
  | true =>
    cases h2 : S.set2.restrictNumberValues with
    | true =>
      refine RelAt.ite (fun _ => ?_) fun _ => hrest _ _ hs
      refine RelT.bind (liftS (S.vGet false)) (fun _ => ?_) _ _ hs
      refine RelT.bind (fromH (liftS (S.getString false))) fun t => ?_
      refine getT ?_
      rintro _ _ ⟨hr, pk, e, m, st, sa, l, col, bp, pa⟩
      exact RelAt.fail _ (.of_nonfatal (RRel.mk hr ..) id)
    | false =>
      rw [Bool.true_and, Bool.false_and, if_neg Bool.false_ne_true]
      split
      · obtain ⟨hX1, hX2, hX3, hX4⟩ := S.restrictX h1 h2
        rename_i c a _
        suffices h : ∃ er t, M.run (do
            Reader.liftS (ByteSource.vGet false)
            let number ← Reader.liftS ByteSource.getString
            let s ← M.get
            M.fail (RErr.unsupportedNumberValue number (loc s)) : R σ1 Unit)
            ⟨c, pk, e, m, st, sa, l, col, bp, pa, S.set1⟩ = .err er t ∧ S.X er by
          obtain ⟨er, t, h, hX⟩ := h
          exact RelAt.left h hX
        rw [M.run_bind]
        unfold Reader.liftS
        dsimp only
        cases hg : (ByteSource.vGet false : M SrcErr σ1 Unit).run c with
        | err e c' =>
          obtain ⟨p, rfl⟩ := hX3 _ _ _ hg
          exact ⟨_, _, rfl, hX2 _⟩
        | ok x c' =>
          dsimp only
          rw [M.run_bind]
          dsimp only
          cases hg : (ByteSource.getString : M SrcErr σ1 Text).run c' with
          | err e c' =>
            obtain ⟨p, rfl⟩ := hX4 _ _ _ hg
            exact ⟨_, _, rfl, hX2 _⟩
          | ok t c' => exact ⟨_, _, rfl, hX1 _ _⟩
      · exact hrest _ _ hs

theorem skipNumberT : S.T (.idle false) skipNumber skipNumber (fun _ => .idle false) := by
  refine RelT.bind (startExpectedValueTypeT _ _) fun _ => ?_
  refine RelT.bind (consumeNumberT (p := .idle true) (pureP _) skipPeeked peekByteK) fun r => ?_
  exact toI (finishNumberG peekByteK _)

/-! ## Methods -/

/-- abbreviation for methods which start and end between values -/
abbrev IT {α : Type} (S : Sim σ1 σ2) (m1 : R σ1 α) (m2 : R σ2 α) : Prop := S.T (.idle false) m1 m2 (fun _ => .idle false)

theorem peekT : S.IT peek peek := by
  refine getT ?_
  rintro _ _ ⟨hr, pk, e, m, st, sa, l, col, bp, pa⟩
  have hs := RRel.mk hr pk e m st sa l col bp pa
  refine RelAt.ite (fun _ => usagePanic _ _ _ _ hs) fun _ => ?_
  exact RelT.bind peekInternalT (fun p => mapPeekedT p) _ _ hs

theorem beginArrayT : S.IT beginArray beginArray := by
  refine RelT.bind (onContainerStartT _ _) fun _ => modifyT ?_
  rintro _ _ ⟨hr, pk, e, m, st, sa, l, col, b, pa⟩
  exact RRel.mk hr ..

theorem beginObjectT : S.IT beginObject beginObject := by
  refine RelT.bind (onContainerStartT _ _) fun _ => modifyT ?_
  rintro _ _ ⟨hr, pk, e, m, st, sa, l, col, b, pa⟩
  exact RRel.mk hr ..

theorem endArrayT : S.IT endArray endArray := by
  refine getT ?_
  rintro _ _ ⟨hr, pk, e, m, st, sa, l, col, bp, pa⟩
  have hs := RRel.mk hr pk e m st sa l col bp pa
  refine RelAt.ite (fun _ => usagePanic _ _ _ _ hs) fun _ => ?_
  refine RelT.bind peekInternalT (fun p => ?_) _ _ hs
  refine RelT.ite (fun _ => structureErr _ _) fun _ => ?_
  exact RelT.bind consumePeekedT fun _ => onContainerEndT

theorem endObjectT : S.IT endObject endObject := by
  refine getT ?_
  rintro _ _ ⟨hr, pk, e, m, st, sa, l, col, bp, pa⟩
  have hs := RRel.mk hr pk e m st sa l col bp pa
  refine RelAt.ite (fun _ => usagePanic _ _ _ _ hs) fun _ => ?_
  refine RelAt.ite (fun _ => usagePanic _ _ _ _ hs) fun _ => ?_
  refine RelT.bind peekInternalT (fun p => ?_) _ _ hs
  refine RelT.ite (fun _ => structureErr _ _) fun _ => ?_
  refine RelT.bind consumePeekedT fun _ => ?_
  refine RelT.bind (modifyT ?_) fun _ => onContainerEndT
  rintro _ _ ⟨hr, pk, e, m, st, sa, l, col, b, pa⟩
  exact RRel.mk hr ..

theorem hasNextT : S.IT hasNext hasNext := by
  refine getT ?_
  rintro _ _ ⟨hr, pk, e, m, st, sa, l, col, bp, pa⟩
  have hs := RRel.mk hr pk e m st sa l col bp pa
  refine RelAt.ite (fun _ => usagePanic _ _ _ _ hs) fun _ => ?_
  refine RelAt.bind (Q := fun _ => S.RRel (.idle false)) ?_ fun r => ?_
  · refine RelAt.ite (fun _ => ?_) fun _ => RelT.bind peekInternalT (fun p => pureP _) _ _ hs
    refine RelAt.ite (fun _ => usagePanic _ (fun _ => .idle false) _ _ hs) fun _ => ?_
    dsimp only
    cases h1 : S.set1.allowMultipleTopLevel with
    | true =>
      rw [S.multi h1]
      exact peekInternalOptionalT _ _ hs
    | false =>
      cases h2 : S.set2.allowMultipleTopLevel with
      | true => exact RelAt.left rfl ((S.multiX h1 h2).1 _)
      | false => exact usagePanic _ (fun _ => .idle false) _ _ hs
  · cases r with
    | none => exact pureP _
    | some p =>
      refine getT ?_
      rintro _ _ ⟨hr, pk, e, m, st, sa, l, col, bp, pa⟩
      have hs := RRel.mk hr pk e m st sa l col bp pa
      exact RelAt.ite (fun _ => internalPanic _ _ _ _ hs) fun _ => RelAt.pure _ hs

theorem beforeNameT : S.IT beforeName beforeName := by
  refine getT ?_
  rintro _ _ ⟨hr, pk, e, m, st, sa, l, col, bp, pa⟩
  have hs := RRel.mk hr pk e m st sa l col bp pa
  refine RelAt.ite (fun _ => usagePanic _ _ _ _ hs) fun _ => ?_
  refine RelAt.ite (fun _ => usagePanic _ _ _ _ hs) fun _ => ?_
  refine RelT.bind hasNextT (fun p => ?_) _ _ hs
  refine RelT.ite (fun _ => ?_) fun _ => structureErr _ _
  refine RelT.bind (modifyT ?_) fun _ => consumePeekedT
  rintro _ _ ⟨hr, pk, e, m, st, sa, l, col, b, pa⟩
  exact RRel.mk hr ..

theorem setPathNameT {p : Phase} (t : Text) : S.T p (setPathName t) (setPathName t) (fun _ => p) := by
  refine getT ?_
  rintro _ _ ⟨hr, pk, e, m, st, sa, l, col, bp, pa⟩
  have hs := RRel.mk hr pk e m st sa l col bp pa
  rcases pa with _ | _ | ⟨_ | _, ps⟩
  · exact RelAt.pure _ hs
  · exact internalPanic _ (fun _ => p) _ _ hs
  · exact internalPanic _ (fun _ => p) _ _ hs
  · exact RelAt.set (RRel.mk hr ..)

theorem nextNameOwnedT : S.IT nextNameOwned nextNameOwned := by
  refine RelT.bind beforeNameT fun _ => ?_
  refine RelT.bind (readStringT false) fun _ => ?_
  refine RelT.bind (liftS (S.getString false)) fun _ => ?_
  exact RelT.bind (setPathNameT _) fun _ => pureP _

theorem nextNameT : S.IT nextName nextName := by
  refine RelT.bind beforeNameT fun _ => ?_
  refine RelT.bind (readStringT true) fun _ => ?_
  refine getT ?_
  rintro _ _ ⟨hr, pk, e, m, st, sa, l, col, bp, pa⟩
  have hs := RRel.mk hr pk e m st sa l col bp pa
  refine RelAt.bind (Q := fun _ => S.RRel (.held false true)) ?_ fun _ => liftS S.getStr
  refine RelAt.ite (fun _ => ?_) fun _ => RelAt.pure _ hs
  exact RelT.bind (liftS S.getStrPeek) (fun _ => setPathNameT _) _ _ hs

theorem nextBoolT : S.IT nextBool nextBool := by
  refine RelT.bind (startExpectedValueTypeT _ _) fun p => ?_
  refine RelT.bind (Q := fun _ => S.RRel (.idle false)) ?_ fun _ => RelT.bind onValueEndT fun _ => pureP _
  cases p
  case booleanTrue => exact pureP _
  case booleanFalse => exact pureP _
  all_goals exact internalPanic (S := S) _ (fun _ => .idle false)

theorem nextNullT : S.IT nextNull nextNull :=
  RelT.bind (startExpectedValueTypeT _ _) fun _ => onValueEndT

theorem skipNameT : S.IT skipName skipName := by
  refine RelT.bind beforeNameT fun _ => ?_
  refine getT ?_
  rintro _ _ ⟨hr, pk, e, m, st, sa, l, col, bp, pa⟩
  have hs := RRel.mk hr pk e m st sa l col bp pa
  refine RelAt.ite (fun _ => ?_) fun _ => skipAllStringBytesT _ _ hs
  refine RelT.bind (readStringT false) (fun _ => ?_) _ _ hs
  exact RelT.bind (liftS (S.getString false)) fun _ => setPathNameT _

theorem nextStringT : S.IT nextString nextString := by
  refine RelT.bind (startExpectedValueTypeT _ _) fun p => ?_
  refine RelT.bind (readStringT false) fun _ => ?_
  refine RelT.bind (liftS (S.getString false)) fun _ => ?_
  exact RelT.bind onValueEndT fun _ => pureP _

theorem nextStrT : S.IT nextStr nextStr := by
  refine RelT.bind (startExpectedValueTypeT _ _) fun p => ?_
  refine RelT.bind (readStringT true) fun _ => ?_
  exact RelT.bind onValueEndT fun _ => liftS S.getStr

theorem nextNumberAsStringT : S.IT nextNumberAsString nextNumberAsString :=
  RelT.bind (readNumberBytesT false) fun _ => fromH (liftS (S.getString false))

theorem nextNumberAsStrT : S.IT nextNumberAsStr nextNumberAsStr :=
  RelT.bind (readNumberBytesT true) fun _ => fromH (liftS S.getStr)

theorem skipValueStartT : S.IT skipValueStart skipValueStart := by
  refine RelT.bind peekT fun t => ?_
  cases t
  · exact RelT.bind beginArrayT fun _ => pureP _
  · exact RelT.bind beginObjectT fun _ => pureP _
  · refine RelT.bind (startExpectedValueTypeT _ _) fun _ => ?_
    refine RelT.bind skipAllStringBytesT fun _ => ?_
    exact RelT.bind onValueEndT fun _ => pureP _
  · exact RelT.bind skipNumberT fun _ => pureP _
  · exact RelT.bind nextBoolT fun _ => pureP _
  · exact RelT.bind nextNullT fun _ => pureP _

theorem endContainerT : S.IT endContainer endContainer := by
  refine getT ?_
  rintro _ _ ⟨hr, pk, e, m, st, sa, l, col, bp, pa⟩
  have hs := RRel.mk hr pk e m st sa l col bp pa
  exact RelAt.ite (fun _ => endArrayT _ _ hs) fun _ => endObjectT _ _ hs

theorem skipNameIfExpectedT : S.IT skipNameIfExpected skipNameIfExpected := by
  refine getT ?_
  rintro _ _ ⟨hr, pk, e, m, st, sa, l, col, bp, pa⟩
  have hs := RRel.mk hr pk e m st sa l col bp pa
  exact RelAt.ite (fun _ => skipNameT _ _ hs) fun _ => RelAt.pure _ hs

theorem atContainerEndT (d : Nat) : S.IT (atContainerEnd d) (atContainerEnd d) :=
  RelT.ite (fun _ => RelT.bind hasNextT fun _ => pureP _) fun _ => pureP _

theorem skipValueLoopT : ∀ (f1 f2 d : Nat) (_ : S.FuelLe f1 f2), S.IT (skipValueLoop f1 d) (skipValueLoop f2 d) := by
  intro f1
  induction f1 with
  | zero => intro f2 d _; exact outOfFuel ‹_› (by rintro rfl; rfl) _
  | succ f1 ih =>
    intro f2 d hf
    obtain ⟨f2, rfl, hf'⟩ := hf.succ
    refine RelT.bind (atContainerEndT _) fun b => ?_
    refine RelT.bind (Q := fun _ => S.RRel (.idle false)) ?_ fun d' => RelT.ite (fun _ => pureP _) fun _ => ih _ _ hf'
    refine RelT.ite (fun _ => RelT.bind endContainerT fun _ => pureP _) fun _ => ?_
    refine RelT.bind skipNameIfExpectedT fun _ => ?_
    exact RelT.bind skipValueStartT fun _ => pureP _

theorem skipValueT : S.IT skipValue skipValue := by
  refine getT ?_
  intro s1 s2 hs
  have hf := fuel_le hs
  obtain ⟨hr, pk, e, m, st, sa, l, col, bp, pa⟩ := hs
  have hs := RRel.mk hr pk e m st sa l col bp pa
  exact RelAt.ite (fun _ => usagePanic _ _ _ _ hs) fun _ => skipValueLoopT _ _ _ hf _ _ hs

theorem skipItemsT : ∀ (f1 f2 : Nat) (_ : S.FuelLe f1 f2), S.IT (skipItems f1) (skipItems f2) := by
  intro f1
  induction f1 with
  | zero => intro f2 _; exact outOfFuel ‹_› (by rintro rfl; rfl) _
  | succ f1 ih =>
    intro f2 hf
    obtain ⟨f2, rfl, hf'⟩ := hf.succ
    refine RelT.bind hasNextT fun b => RelT.ite (fun _ => ?_) fun _ => pureP _
    exact RelT.bind skipValueT fun _ => ih _ hf'

theorem skipMembersT : ∀ (f1 f2 : Nat) (_ : S.FuelLe f1 f2), S.IT (skipMembers f1) (skipMembers f2) := by
  intro f1
  induction f1 with
  | zero => intro f2 _; exact outOfFuel ‹_› (by rintro rfl; rfl) _
  | succ f1 ih =>
    intro f2 hf
    obtain ⟨f2, rfl, hf'⟩ := hf.succ
    refine RelT.bind hasNextT fun b => RelT.ite (fun _ => ?_) fun _ => pureP _
    refine RelT.bind skipNameT fun _ => ?_
    exact RelT.bind skipValueT fun _ => ih _ hf'

theorem finishArrayT : S.IT finishArray finishArray :=
  getT fun _ _ h => RelT.bind (skipItemsT _ _ (fuel_le h)) (fun _ => endArrayT) _ _ h

theorem finishObjectT : S.IT finishObject finishObject :=
  getT fun _ _ h => RelT.bind (skipMembersT _ _ (fuel_le h)) (fun _ => endObjectT) _ _ h

theorem skipToTopLevelLoopT : ∀ n, S.IT (skipToTopLevelLoop n) (skipToTopLevelLoop n) := by
  intro n
  induction n with
  | zero =>
    refine getT ?_
    rintro _ _ ⟨hr, pk, e, m, st, sa, l, col, bp, pa⟩
    have hs := RRel.mk hr pk e m st sa l col bp pa
    exact RelAt.ite (fun _ => RelAt.pure _ hs) fun _ => RelAt.fail _ (.of_panic id id)
  | succ n ih =>
    refine getT ?_
    rintro _ _ ⟨hr, pk, e, m, st, sa, l, col, bp, pa⟩
    have hs := RRel.mk hr pk e m st sa l col bp pa
    rcases st with _ | ⟨_ | _, st⟩
    · exact RelAt.pure _ hs
    · exact RelT.bind finishArrayT (fun _ => ih) _ _ hs
    · exact RelT.bind finishObjectT (fun _ => ih) _ _ hs

theorem skipToTopLevelT : S.IT skipToTopLevel skipToTopLevel := by
  refine getT ?_
  rintro _ _ ⟨hr, pk, e, m, st, sa, l, col, bp, pa⟩
  have hs := RRel.mk hr pk e m st sa l col bp pa
  refine RelAt.ite (fun _ => usagePanic _ _ _ _ hs) fun _ => ?_
  refine RelAt.bind (Q := fun _ => S.RRel (.idle false)) ?_ fun _ => skipToTopLevelLoopT _
  exact RelAt.ite (fun _ => skipValueT _ _ hs) fun _ => RelAt.pure _ hs

theorem consumeTrailingWhitespaceT : S.IT consumeTrailingWhitespace consumeTrailingWhitespace := by
  refine getT ?_
  rintro _ _ ⟨hr, pk, e, m, st, sa, l, col, bp, pa⟩
  have hs := RRel.mk hr pk e m st sa l col bp pa
  refine RelAt.ite (fun _ => usagePanic _ _ _ _ hs) fun _ => ?_
  refine RelAt.ite (fun _ => ?_) fun _ => usagePanic _ _ _ _ hs
  refine RelAt.ite (fun _ => usagePanic _ _ _ _ hs) fun _ => ?_
  refine RelT.bind (skipWhitespaceT _) (fun r => ?_) _ _ hs
  cases r with
  | some b => exact syntaxErr _ _
  | none => exact fromK (pureP _)

theorem seekItemsT (i : Nat) : ∀ n, S.IT (seekItems i n) (seekItems i n) := by
  intro n
  induction n with
  | zero => exact RelT.bind hasNextT fun b => RelT.ite (fun _ => pureP _) fun _ => structureErr _ _
  | succ n ih =>
    refine RelT.bind hasNextT fun b => RelT.ite (fun _ => ?_) fun _ => structureErr _ _
    exact RelT.bind skipValueT fun _ => ih

theorem seekMembersT (t : Text) : ∀ (f1 f2 : Nat) (_ : S.FuelLe f1 f2), S.IT (seekMembers t f1) (seekMembers t f2) := by
  intro f1
  induction f1 with
  | zero => intro f2 _; exact outOfFuel ‹_› (by rintro rfl; rfl) _
  | succ f1 ih =>
    intro f2 hf
    obtain ⟨f2, rfl, hf'⟩ := hf.succ
    refine RelT.bind hasNextT fun b => RelT.ite (fun _ => ?_) fun _ => structureErr _ _
    refine RelT.bind nextNameT fun n => ?_
    refine RelT.ite (fun _ => pureP _) fun _ => ?_
    exact RelT.bind skipValueT fun _ => ih _ hf'

theorem seekToPieceT (p : PathPiece) : S.IT (seekToPiece p) (seekToPiece p) := by
  cases p with
  | arrayItem i => exact RelT.bind beginArrayT fun _ => seekItemsT _ _
  | objectMember t => exact RelT.bind beginObjectT fun _ => getT fun _ _ h => seekMembersT _ _ _ (fuel_le h) _ _ h

theorem seekToLoopT : ∀ p : List PathPiece, S.IT (seekToLoop p) (seekToLoop p)
  | [] => pureP _
  | p :: ps => RelT.bind (seekToPieceT p) fun _ => seekToLoopT ps

theorem seekToT (p : List PathPiece) : S.IT (seekTo p) (seekTo p) :=
  RelT.bind peekT fun _ => seekToLoopT _

theorem seekBackLoopT : ∀ p : List PathPiece, S.IT (seekBackLoop p) (seekBackLoop p)
  | [] => pureP _
  | .arrayItem _ :: ps => RelT.bind finishArrayT fun _ => seekBackLoopT ps
  | .objectMember _ :: ps => RelT.bind finishObjectT fun _ => seekBackLoopT ps

theorem seekBackT (p : List PathPiece) : S.IT (seekBack p) (seekBack p) := seekBackLoopT _

theorem nextStringReaderT : S.IT nextStringReader nextStringReader := by
  refine RelT.bind (startExpectedValueTypeT _ _) fun _ => ?_
  refine RelT.bind (modifyT ?_) fun _ => pureP _
  rintro _ _ ⟨hr, pk, e, m, st, sa, l, col, b, pa⟩
  exact RRel.mk hr ..

theorem strConsumeT (len : Nat) : ∀ bs sr out, S.IT (strConsume len bs sr out) (strConsume len bs sr out) := by
  intro bs
  induction bs with
  | nil => intro sr out; exact pureP _
  | cons b bs ih =>
    intro sr out
    refine RelT.ite (fun _ => ih _ _) fun _ => ?_
    exact RelT.ite (fun _ => ih _ _) fun _ => internalPanic (S := S) _ _

theorem strReadLoopT (len : Nat) : ∀ f sr out, S.IT (strReadLoop len f sr out) (strReadLoop len f sr out) := by
  intro f
  induction f with
  | zero => intro sr out; exact RelT.ite (fun _ => RelT.fail _ (fun _ _ _ => .of_panic id id)) fun _ => pureP _
  | succ f ih =>
    intro sr out
    refine RelT.ite (fun _ => ?_) fun _ => pureP _
    refine RelT.ite (fun _ => internalPanic (S := S) _ _) fun _ => ?_
    refine RelT.bind readStringBytesT fun r => ?_
    refine RelT.bind (strConsumeT _ _ _ _) fun q => ?_
    refine RelT.ite (fun _ => ?_) fun _ => ih _ _
    refine RelT.bind (modifyT ?_) fun _ => RelT.bind onValueEndT fun _ => pureP _
    rintro _ _ ⟨hr, pk, e, m, st, sa, l, col, b, pa⟩
    exact RRel.mk hr ..

theorem strDrainT (len : Nat) (sr : StrReader) : S.IT (strDrain len sr) (strDrain len sr) := by
  unfold strDrain
  refine RelT.ite (fun _ => ?_) fun _ => pureP _
  dsimp only
  cases BufSrc.slice? sr.utf8Buf sr.utf8Start (sr.utf8Start + min sr.utf8Count len) with
  | none => exact internalPanic (S := S) _ _
  | some bs => exact RelT.ite (fun _ => pureP _) fun _ => pureP _

theorem strReadImplT (len : Nat) (sr : StrReader) : S.IT (strReadImpl len sr) (strReadImpl len sr) := by
  refine RelT.ite (fun _ => pureP _) fun _ => ?_
  exact RelT.bind (strDrainT _ _) fun _ => strReadLoopT _ _ _ _

theorem strReadsOkT : ∀ lens sr, S.IT (strReadsOk lens sr) (strReadsOk lens sr)
  | [], _ => pureP _
  | l :: ls, sr => RelT.bind (strReadImplT l sr) fun _ => RelT.bind (strReadsOkT ls _) fun _ => pureP _

theorem unitOutT {m1 : R σ1 Unit} {m2 : R σ2 Unit} (h : S.IT m1 m2) : S.IT (unitOut m1) (unitOut m2) :=
  RelT.bind h fun _ => pureP _
theorem textOutT {m1 : R σ1 Text} {m2 : R σ2 Text} (h : S.IT m1 m2) : S.IT (textOut m1) (textOut m2) :=
  RelT.bind h fun _ => pureP _
theorem boolOutT {m1 : R σ1 Bool} {m2 : R σ2 Bool} (h : S.IT m1 m2) : S.IT (boolOut m1) (boolOut m2) :=
  RelT.bind h fun _ => pureP _

/-- All methods of the reader give the same results for related readers -/
theorem runOpT (op : Op) : S.IT (runOp op) (runOp op) := by
  cases op
  case peek => exact RelT.bind peekT fun _ => pureP _
  case beginArray => exact unitOutT beginArrayT
  case endArray => exact unitOutT endArrayT
  case beginObject => exact unitOutT beginObjectT
  case endObject => exact unitOutT endObjectT
  case nextName => exact textOutT nextNameT
  case nextNameOwned => exact textOutT nextNameOwnedT
  case nextString => exact textOutT nextStringT
  case nextStr => exact textOutT nextStrT
  case stringReader lens =>
    exact RelT.bind nextStringReaderT fun _ => RelT.bind (strReadsOkT _ _) fun _ => pureP _
  case nextNumberAsStr => exact textOutT nextNumberAsStrT
  case nextNumberAsString => exact textOutT nextNumberAsStringT
  case nextBool => exact boolOutT nextBoolT
  case nextNull => exact unitOutT nextNullT
  case hasNext => exact boolOutT hasNextT
  case skipName => exact unitOutT skipNameT
  case skipValue => exact unitOutT skipValueT
  case skipToTopLevel => exact unitOutT skipToTopLevelT
  case seekTo p => exact unitOutT (seekToT p)
  case seekBack p => exact unitOutT (seekBackT p)
  case currentPosition b =>
    refine getT ?_
    rintro _ _ ⟨hr, pk, e, m, st, sa, l, col, bp, pa⟩
    exact RelAt.pure _ (RRel.mk hr ..)
  case consumeTrailingWhitespace => exact unitOutT consumeTrailingWhitespaceT

end Verif.Sim
