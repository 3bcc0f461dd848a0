import Verif.Spec.ErrorKinds
import Verif.Proofs.After.Ops
/-! # Which errors the functions of the reader report: tokens, strings and numbers -/

namespace Verif.Kinds
open Reader ErrorKinds

abbrev St := RState AbsSrc

/-- settings and stack are unchanged -/
def K (s s' : St) : Prop := s'.settings = s.settings ∧ s'.stack = s.stack
/-- the settings are unchanged -/
def Kt (s s' : St) : Prop := s'.settings = s.settings

/-- relations between the states before and after a call -/
class Kr {S : Type} (f : S → St) (P : S → S → Prop) : Prop where
  refl : ∀ s, P s s
  trans : ∀ {a b c}, P a b → P b c → P a c
  settings : ∀ {a b}, P a b → (f b).settings = (f a).settings

instance : Kr id K := ⟨fun _ => ⟨rfl, rfl⟩, fun h h' => ⟨h'.1.trans h.1, h'.2.trans h.2⟩, fun h => h.1⟩
instance : Kr id Kt := ⟨fun _ => rfl, fun h h' => h'.trans h, fun h => h⟩

/-- all errors are allowed ones; for arbitrary states -/
def BlG {S α : Type} (st : Settings) (d : Does) (f : S → St) (P : S → S → Prop) (m : M RErr S α) : Prop :=
  ∀ s, (f s).settings = st → Wp m s (fun _ s' => P s s') (fun e s' => Allowed st d e ∧ (f s').settings = st)

abbrev Bl {α : Type} (st : Settings) (d : Does) (P : St → St → Prop) (m : R AbsSrc α) : Prop := BlG st d id P m

section
variable {S α β : Type} {st : Settings} {d : Does} {f : S → St} {P : S → S → Prop} [Kr f P] {m : M RErr S α} {g : α → M RErr S β}

theorem BlG.bind (h : BlG st d f P m) (hg : ∀ a, BlG st d f P (g a)) : BlG st d f P (m >>= g) := by
  intro s hs
  refine Wp.bind' (h s hs) fun a s1 h1 => ?_
  exact (hg a s1 ((Kr.settings (f := f) h1).trans hs)).post fun b s2 h2 => Kr.trans f h1 h2

theorem BlG.pure (a : α) : BlG st d f P (pure a : M RErr S α) := fun s _ => Kr.refl f s
theorem BlG.oof : BlG st d f P (M.fail .outOfFuel : M RErr S α) := fun _ hs => ⟨trivial, hs⟩
omit [Kr f P] in
theorem BlG.ite {c : Prop} [Decidable c] {a b : M RErr S α} (h1 : c → BlG st d f P a) (h2 : ¬ c → BlG st d f P b) : BlG st d f P (if c then a else b) := by
  split
  · exact h1 ‹_›
  · exact h2 ‹_›
end

section
variable {α β : Type} {st : Settings} {d : Does} {P : St → St → Prop} [Kr id P]

namespace Bl
theorem bind {m : R AbsSrc α} {g : α → R AbsSrc β} (h : Bl st d P m) (hg : ∀ a, Bl st d P (g a)) : Bl st d P (m >>= g) := BlG.bind h hg
theorem pure (a : α) : Bl st d P (pure a) := BlG.pure a
theorem fuel : Bl st d P (M.fail .outOfFuel : R AbsSrc α) := BlG.oof
omit [Kr id P] in
theorem ite {c : Prop} [Decidable c] {a b : R AbsSrc α} (h1 : c → Bl st d P a) (h2 : ¬ c → Bl st d P b) : Bl st d P (if c then a else b) := BlG.ite h1 h2
omit [Kr id P] in
theorem get {g : St → R AbsSrc β} (h : ∀ s, s.settings = st → Bl st d P (g s)) : Bl st d P (M.get >>= g) := fun s hs => h s hs s hs
omit [Kr id P] in
theorem modify {g : St → St} (h : ∀ s, P s (g s)) : Bl st d P (M.modify g) := fun s _ => h s
omit [Kr id P] in
theorem syn {k : SyntaxKind} (h : SyntaxAllowed st d k) : Bl st d P (syntaxErr k : R AbsSrc α) := fun _ hs => ⟨h, hs⟩
omit [Kr id P] in
theorem io {e : IoErr} (h : d.reads = true) : Bl st d P (ioErr e : R AbsSrc α) := fun _ hs => ⟨h, hs⟩
omit [Kr id P] in
theorem struct {k : StructureKind} (h : d.structures k = true) : Bl st d P (structureErr k : R AbsSrc α) := fun _ hs => ⟨h, hs⟩
omit [Kr id P] in
theorem usage {u : UsagePanic} : Bl st d P (usagePanic u : R AbsSrc α) := fun _ hs => ⟨trivial, hs⟩
omit [Kr id P] in
theorem internal {i : InternalPanic} : Bl st d P (internalPanic i : R AbsSrc α) := fun _ hs => ⟨trivial, hs⟩
theorem unwrap {o : Option α} : Bl st d P (Reader.unwrap o) := by
  cases o with
  | none => exact internal
  | some a => exact pure a
theorem toT {m : R AbsSrc α} (h : Bl st d K m) : Bl st d Kt m := fun s hs => (h s hs).post fun _ _ h => h.1
end Bl

theorem Bl.adv {a b : Nat} : Bl st d K (advance a b) := Bl.modify fun _ => ⟨rfl, rfl⟩

theorem Bl.lift (h : d.reads = true) (m : M SrcErr AbsSrc α) : Bl st d K (liftS m) := by
  intro s hs
  unfold Wp liftS
  dsimp only
  cases m.run s.src with
  | ok a c => exact ⟨rfl, rfl⟩
  | err e c => cases e <;> first | exact ⟨h, hs⟩ | exact ⟨trivial, hs⟩
end

/-- combine the rules -/
macro "bl1" : tactic => `(tactic| first
  | (with_reducible assumption) | (with_reducible exact Bl.pure _) | (with_reducible exact Bl.syn (by with_unfolding_all first | assumption | exact And.intro ‹_› ‹_›))
  | (with_reducible exact Bl.io (by assumption)) | (with_reducible exact Bl.struct (by assumption)) | (with_reducible exact Bl.usage) | (with_reducible exact Bl.internal) | (with_reducible exact Bl.unwrap)
  | (with_reducible exact Bl.adv) | (with_reducible exact Bl.fuel) | (with_reducible exact Bl.lift (by assumption) _)
  | ((with_reducible refine Bl.modify ?_) <;> (intro _; first | exact ⟨rfl, rfl⟩ | exact rfl))
  | (with_reducible refine Bl.get fun _ _ => ?_)
  | (with_reducible refine Bl.bind ?_ fun _ => ?_) | (with_reducible refine Bl.ite (fun _ => ?_) (fun _ => ?_)) | split | (show Bl _ _ _ _; dsimp only))

macro "bl" : tactic => `(tactic| repeat (any_goals bl1))

variable {st : Settings} {d : Does}

section
variable (hr : d.reads = true)
include hr

theorem peekByte_bl : Bl st d K peekByte := .lift hr _
theorem skipPeekedByte_bl : Bl st d K skipPeekedByte := .lift hr _
theorem vPeek_bl : Bl st d K vPeek := .lift hr _

theorem readByte_bl {k : SyntaxKind} (hk : SyntaxAllowed st d k) : Bl st d K (readByte k) := by
  have := peekByte_bl (st := st) hr; have := skipPeekedByte_bl (st := st) hr
  unfold readByte; bl

theorem vReadByte_bl {k : SyntaxKind} (hk : SyntaxAllowed st d k) : Bl st d K (vReadByte k) := by
  have := vPeek_bl (st := st) hr
  unfold vReadByte; bl

theorem vReadByteSkip_bl {k : SyntaxKind} (hk : SyntaxAllowed st d k) : Bl st d K (vReadByteSkip k) := by
  have := vReadByte_bl hr hk
  unfold vReadByteSkip; bl

section
variable {rb : SyntaxKind → R AbsSrc UInt8} (hb : ∀ k, SyntaxAllowed st d k → Bl st d K (rb k))
include hb

theorem multibyte_bl {b : UInt8} : Bl st d K (readUtf8Multibyte rb b) := by
  have h1 := hb .incompleteDocument hr
  have h2 : ∀ o bs, Bl st d K (checkValid o bs) := by intro o bs; unfold checkValid; bl
  unfold readUtf8Multibyte; bl <;> exact h2 _ _

variable (hs : d.strings = true)
include hs

omit hr in
theorem escape_bl : Bl st d K (readUnicodeEscape rb) := by
  have h1 := hb .malformedEscapeSequence hs
  have h : Bl st d K (readHexByte rb) := by unfold readHexByte parseHexDigit; bl
  unfold readUnicodeEscape; bl

omit hr in
theorem escapeChar_bl : Bl st d K (readUnicodeEscapeChar rb) := by
  have h1 := hb .unpairedSurrogatePairEscapeSequence hs
  have h2 := escape_bl hb hs
  unfold readUnicodeEscapeChar readLowSurrogate escapedChar; bl
end

/-! ## Whitespace -/

theorem skipToByte_bl {b : UInt8} {cr : Bool} : Bl st d K (skipToByte b cr) := by
  have h := multibyte_bl (st := st) (rb := readByte) hr (fun _ hk => readByte_bl hr hk) (b := b)
  unfold skipToByte; cases cr <;> bl

theorem skipToLoop_bl {stop : UInt8 → Bool} {k : Option SyntaxKind} (hk : ∀ k', k = some k' → SyntaxAllowed st d k') : ∀ {n : Nat} {cr : Bool}, Bl st d K (skipToLoop stop k n cr)
  | 0, _ => Bl.fuel
  | n + 1, cr => by
    have h1 := peekByte_bl (st := st) hr; have h2 := skipPeekedByte_bl (st := st) hr
    have h3 := fun b => skipToByte_bl (st := st) hr (b := b) (cr := cr)
    have ih := fun cr => skipToLoop_bl (stop := stop) hk (n := n) (cr := cr)
    unfold skipToLoop
    cases k with
    | none => bl <;> first | exact h3 _ | exact ih _
    | some k =>
      have hk := hk k rfl
      bl <;> first | exact h3 _ | exact ih _

theorem skipTo_bl {stop : UInt8 → Bool} {k : Option SyntaxKind} (hk : ∀ k', k = some k' → SyntaxAllowed st d k') : Bl st d K (skipTo stop k) := by
  unfold skipTo; bl; exact skipToLoop_bl hr hk

theorem block_bl (hc : st.allowComments = true) : ∀ {n : Nat}, Bl st d K (skipToBlockCommentEnd n)
  | 0 => Bl.fuel
  | n + 1 => by
    have h1 := peekByte_bl (st := st) hr; have h2 := skipPeekedByte_bl (st := st) hr
    have ih := block_bl hc (n := n)
    rw [skipToBlockCommentEnd]; bl
    exact skipTo_bl hr (by rintro _ ⟨⟩; exact ⟨hr, hc⟩)

theorem comment_bl (hc : st.allowComments = true) {k : Option SyntaxKind} (hk : ∀ k', k = some k' → SyntaxAllowed st d k') : Bl st d K (skipComment k) := by
  have h1 := skipPeekedByte_bl (st := st) hr
  have h2 := readByte_bl (st := st) (k := .incompleteComment) hr ⟨hr, hc⟩
  unfold skipComment; bl
  · exact block_bl hr hc
  · exact skipTo_bl hr hk

theorem wsLoop_bl {k : Option SyntaxKind} (hk : ∀ k', k = some k' → SyntaxAllowed st d k') : ∀ {n : Nat}, Bl st d K (skipWhitespaceLoop k n)
  | 0 => Bl.fuel
  | n + 1 => by
    have h1 := peekByte_bl (st := st) hr
    have ih := wsLoop_bl hk (n := n)
    unfold skipWhitespaceLoop
    refine Bl.bind (skipTo_bl hr nofun) fun _ => Bl.bind h1 fun b => ?_
    cases b with
    | none =>
      cases k with
      | none => exact Bl.pure _
      | some k => exact Bl.syn (hk k rfl)
    | some b =>
      refine Bl.ite (fun _ => Bl.get fun s hs => Bl.ite (fun h => ?_) fun h => ?_) fun _ => Bl.pure _
      · exact Bl.syn ⟨hr, by rw [hs] at h; simpa using h⟩
      · exact Bl.bind (comment_bl hr (by rw [hs] at h; simpa using h) hk) fun _ => ih

theorem ws_bl {k : Option SyntaxKind} (hk : ∀ k', k = some k' → SyntaxAllowed st d k') : Bl st d K (skipWhitespace k) := by
  unfold skipWhitespace; bl; exact wsLoop_bl hr hk

theorem ws'_bl {k : SyntaxKind} (hk : SyntaxAllowed st d k) : Bl st d K (skipWhitespaceNoEof k) := by
  have := ws_bl hr (k := some k) (by rintro _ ⟨⟩; exact hk)
  unfold skipWhitespaceNoEof; bl

theorem sep_bl {k : SyntaxKind} (hk : SyntaxAllowed st d k) : Bl st d K (verifyValueSeparator k) := by
  have := peekByte_bl (st := st) hr
  unfold verifyValueSeparator; bl

/-! ## Tokens -/

section
variable (ht : d.tokens = true)
include ht

theorem lit_bl {bs : Bytes} : Bl st d K (consumeLiteral bs) := by
  have h : ∀ bs, Bl st d K (consumeLiteralBytes bs) := by
    intro bs
    induction bs with
    | nil => exact Bl.pure _
    | cons b bs ih =>
      have := readByte_bl (st := st) (k := .invalidLiteral) hr ht
      rw [consumeLiteralBytes]; bl
  have := h bs
  have := sep_bl (st := st) (k := .trailingDataAfterLiteral) hr ht
  unfold consumeLiteral; bl

theorem afterName_bl : Bl st d K afterName := by
  have := ws'_bl (st := st) (k := .missingColon) hr ht
  have := skipPeekedByte_bl (st := st) hr
  unfold afterName; bl

theorem classify_bl {b : UInt8} : Bl st d K (classify b) := by
  have h := fun bs => lit_bl (st := st) hr ht (bs := bs)
  unfold classify; bl <;> exact h _

theorem finishPeek_bl {c : Bool} {o : Option (Nat × Nat × Nat)} {k : Peeked × Bool} : Bl st d K (finishPeek c o k) := by
  have h := skipPeekedByte_bl (st := st) hr
  have hp : Bl st d K (do (if k.2 then skipPeekedByte else pure ()); M.modify fun s => { s with peeked := some k.1 }; pure (some k.1) : R AbsSrc (Option Peeked)) := by bl
  unfold finishPeek
  intro s hs
  refine Wp.get (Wp.ite (fun _ => ?_) fun _ => Wp.ite (fun _ => ⟨ht, hs⟩) fun _ => hp s hs)
  rcases o with _ | ⟨l, c, b⟩
  · exact hp s hs
  · refine Wp.ite (fun h => ?_) fun _ => hp s hs
    have hs' : s.settings = st := hs
    exact ⟨⟨ht, by rw [hs'] at h; simpa using h⟩, hs⟩

theorem peekToken_bl : Bl st d K peekToken := by
  have := skipPeekedByte_bl (st := st) hr
  have := ws_bl (st := st) (k := none) hr nofun
  have := ws'_bl (st := st) (k := .incompleteDocument) hr hr
  have h1 := fun b => classify_bl (st := st) hr ht (b := b)
  have h2 := fun c o k => finishPeek_bl (st := st) hr ht (c := c) (o := o) (k := k)
  unfold peekToken; bl <;> first | exact h1 _ | exact h2 _ _ _

theorem pio_bl : Bl st d K peekInternalOptional := by
  have := afterName_bl (st := st) hr ht
  have := peekToken_bl (st := st) hr ht
  unfold peekInternalOptional; bl

/-- inside of an array or object there is always another token -/
theorem pi_inside {s : St} (hs : s.settings = st) (hi : s.stack ≠ []) : Wp peekInternal s (fun _ s' => K s s') (fun e s' => Allowed st d e ∧ s'.settings = st) := by
  unfold peekInternal
  refine Wp.bind' (pio_bl hr ht s hs) fun o s1 h1 => ?_
  cases o with
  | some p => exact Wp.pure h1
  | none =>
    refine Wp.get (Wp.ite (fun h => ?_) fun _ => ⟨hr, h1.1.trans hs⟩)
    have h2 := h1.2
    unfold isBehindTopLevel at h
    rw [h2] at h
    cases hx : s.stack with
    | nil => exact absurd hx hi
    | cons a b => rw [hx] at h; simp at h

variable (hf : d.structures .fewerElementsThanExpected = true)
include hf

theorem pi_bl : Bl st d K peekInternal := by
  have := pio_bl (st := st) hr ht
  have h : SyntaxAllowed st d .incompleteDocument := hr
  unfold peekInternal; bl

omit hr ht in
theorem mapPeeked_bl {k : Peeked} : Bl st d K (mapPeeked k) := by
  unfold mapPeeked; bl

omit hr ht hf in
theorem consumePeeked_bl : Bl st d K consumePeeked := by
  intro s hs
  unfold consumePeeked
  refine Wp.get ?_
  cases s.peeked with
  | none => exact ⟨trivial, hs⟩
  | some p => exact ⟨rfl, rfl⟩

omit hr ht hf in
theorem depth_some {s : St} (hs : s.settings = st) {m : Nat} (h : depthExceeded s = some m) : st.maxNestingDepth = some m := by
  unfold depthExceeded at h
  rw [hs] at h
  split at h
  · split at h <;> simp_all
  · cases h

theorem sev_bl {t : ValueType} {c : Bool} (hw : d.wants t = true) (hc : c = true → d.starts = true) : Bl st d K (startExpectedValueType t c) := by
  unfold startExpectedValueType
  refine Bl.get fun _ _ => Bl.ite (fun _ => Bl.usage) fun _ => Bl.bind (pi_bl hr ht hf) fun p => Bl.bind (mapPeeked_bl hf) fun v => Bl.get fun s hs => Bl.ite (fun _ => ?_) fun hv => ?_
  · cases c with
    | false => exact Bl.bind consumePeeked_bl fun _ => Bl.pure _
    | true =>
      cases hm : depthExceeded s with
      | none => exact Bl.bind consumePeeked_bl fun _ => Bl.pure _
      | some m => exact fun _ hs' => ⟨⟨hc rfl, depth_some hs hm⟩, hs'⟩
  · refine fun _ hs' => ⟨⟨hw, fun h => hv ?_⟩, hs'⟩
    rw [h]
    exact beq_self_eq_true v

end

/-! ## Strings -/

section
variable (hs : d.strings = true)
include hs

theorem strBytes_bl : Bl st d K readStringBytes := by
  have h0 := fun k (hk : SyntaxAllowed st d k) => readByte_bl hr hk
  have h1 := fun b => multibyte_bl hr h0 (b := b)
  have h2 := escapeChar_bl h0 hs
  have h3 := h0 .incompleteDocument hr
  have h4 := h0 .malformedEscapeSequence hs
  unfold readStringBytes; bl <;> exact h1 _

theorem skipStr_bl : Bl st d K skipAllStringBytes := by
  have h : ∀ n, Bl st d K (skipAllStringBytesLoop n) := by
    intro n
    induction n with
    | zero => exact Bl.fuel
    | succ n ih =>
      have := strBytes_bl (st := st) hr hs
      rw [skipAllStringBytesLoop]; bl
  unfold skipAllStringBytes; bl; exact h _

theorem readString_bl {b : Bool} : Bl st d K (readString b) := by
  have h0 := fun k (hk : SyntaxAllowed st d k) => vReadByte_bl hr hk
  have h2 := escapeChar_bl (st := st) (rb := vReadByteSkip) (fun k hk => vReadByteSkip_bl hr hk) hs
  have h3 := h0 .incompleteDocument hr
  have h4 := h0 .malformedEscapeSequence hs
  have h5 : Bl st d K readStringEscape := by unfold readStringEscape; bl
  have h : ∀ n, Bl st d K (readStringLoop b n) := by
    intro n
    induction n with
    | zero => exact Bl.fuel
    | succ n ih =>
      have h6 := fun b => multibyte_bl hr h0 (b := b)
      rw [readStringLoop]; bl; exact h6 _
  unfold readString; bl; exact h _
end
end

end Verif.Kinds
