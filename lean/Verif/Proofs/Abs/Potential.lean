import Verif.Proofs.Abs.Progress
/-!
# The number of successful calls which read something

The bytes which are left, together with the peeked token, never become more, and become less for every successful call which reads something. This holds also after errors
such as `UnsupportedNumberValue`, where the position is not advanced.
-/

namespace Verif.Abs
open Reader

/-- length of the peeked token -/
def pl : Option Peeked → Nat
  | some p => peekedLength p
  | none => 0

/-- bytes which are left, including the peeked token -/
def left (s : St) : Nat := s.src.rest.length + pl s.peeked

def Pot {α : Type} (m : R AbsSrc α) : Prop := ∀ s, match m.run s with
  | .ok _ s' => left s' ≤ left s
  | .err e s' => e.fatal = false → left s' ≤ left s

section
variable {α β : Type} {m : R AbsSrc α} {f : α → R AbsSrc β}

theorem Pot.ok (h : Pot m) {s s' : St} {a : α} (hr : m.run s = .ok a s') : left s' ≤ left s := by
  have := h s
  rw [hr] at this
  exact this

theorem Pot.err (h : Pot m) {s s' : St} {e : RErr} (hr : m.run s = .err e s') (hf : e.fatal = false) : left s' ≤ left s := by
  have := h s
  rw [hr] at this
  exact this hf

theorem Pot.bind (h : Pot m) (hf : ∀ a, Pot (f a)) : Pot (m >>= f) := by
  intro s
  rw [M.run_bind]
  cases hm : m.run s with
  | err e s1 => exact h.err hm
  | ok a s1 =>
    dsimp only
    have h1 := h.ok hm
    cases h2 : (f a).run s1 with
    | ok b s2 => exact Nat.le_trans ((hf a).ok h2) h1
    | err e s2 => exact fun he => Nat.le_trans ((hf a).err h2 he) h1

theorem Pot.pure (a : α) : Pot (pure a : R AbsSrc α) := fun _ => Nat.le_refl _
theorem Pot.fail {e : RErr} : Pot (M.fail e : R AbsSrc α) := fun _ _ => Nat.le_refl _
theorem Pot.syn {k : SyntaxKind} : Pot (syntaxErr k : R AbsSrc α) := fun _ _ => Nat.le_refl _
theorem Pot.structure {k : StructureKind} : Pot (structureErr k : R AbsSrc α) := fun _ _ => Nat.le_refl _
theorem Pot.io {e : IoErr} : Pot (ioErr e : R AbsSrc α) := fun _ _ => Nat.le_refl _
theorem Pot.usage {p : UsagePanic} : Pot (usagePanic p : R AbsSrc α) := .fail
theorem Pot.internal {p : InternalPanic} : Pot (internalPanic p : R AbsSrc α) := .fail
theorem Pot.unwrap {o : Option α} : Pot (Reader.unwrap o : R AbsSrc α) := by
  cases o
  · exact .internal
  · exact .pure _
theorem Pot.ite {c : Prop} [Decidable c] {m1 m2 : R AbsSrc α} (h1 : Pot m1) (h2 : Pot m2) : Pot (if c then m1 else m2) := by
  split
  · exact h1
  · exact h2
theorem Pot.get {f : St → R AbsSrc β} (h : ∀ s, Pot (f s)) : Pot (M.get >>= f) := by
  intro s
  rw [run_get]
  exact h s s
theorem Pot.get' {f : St → R AbsSrc β} (h : ∀ s, match (f s).run s with
  | .ok _ s' => left s' ≤ left s
  | .err e s' => e.fatal = false → left s' ≤ left s) : Pot (M.get >>= f) := by
  intro s
  rw [run_get]
  exact h s
theorem Pot.modify {g : St → St} (h1 : ∀ s, (g s).src = s.src) (h2 : ∀ s, (g s).peeked = s.peeked) : Pot (M.modify g : R AbsSrc Unit) := by
  intro s
  show left (g s) ≤ left s
  unfold left
  rw [h1, h2]
  exact Nat.le_refl _
theorem Pot.adv {a b : Nat} : Pot (advance a b : R AbsSrc Unit) := .modify (fun _ => rfl) fun _ => rfl
theorem Pot.lift {m : M SrcErr AbsSrc α} (h : ∀ c a c', m.run c = .ok a c' → c'.rest.length ≤ c.rest.length) : Pot (liftS m) := by
  intro s
  unfold Reader.liftS
  dsimp only
  cases hm : m.run s.src with
  | ok a c => exact Nat.add_le_add_right (h _ _ _ hm) _
  | err e c => cases e <;> exact nofun

/-- computations with only fatal errors which do not change the peeked token -/
theorem Pot.of_loc {m' : R AbsSrc α} (hl : Loc m m') (hk : Kp m) (hf : ∀ s e s', m.run s = .err e s' → e.fatal = true) : Pot m := by
  intro s
  cases hm : m.run s with
  | ok a s' =>
    have := hl s
    unfold LocAt at this
    rw [hm] at this
    obtain ⟨q, h1, _⟩ := this
    have h2 : s'.peeked = s.peeked := hk _ _ _ hm
    have h3 := congrArg List.length h1.rest
    rw [List.length_drop] at h3
    show s'.src.rest.length + pl s'.peeked ≤ s.src.rest.length + pl s.peeked
    rw [h2]
    have : s'.src.rest.length ≤ s.src.rest.length := by
      change s'.src.rest.length = s.src.rest.length - q at h3
      omega
    omega
  | err e s' =>
    intro he
    rw [hf _ _ _ hm] at he
    cases he

theorem Pot.peekByte : Pot (peekByte : R AbsSrc _) := by
  refine .lift fun c a c' h => ?_
  obtain ⟨r, t, acc⟩ := c
  cases r <;> cases t <;> cases h <;> exact Nat.le_refl _
theorem Pot.vPeek : Pot (vPeek : R AbsSrc _) := Pot.peekByte
theorem Pot.skipPeekedByte : Pot (skipPeekedByte : R AbsSrc _) := by
  refine .lift fun c a c' h => ?_
  obtain ⟨r, t, acc⟩ := c
  cases r <;> cases h
  exact Nat.le_succ _
theorem Pot.vConsume : Pot (liftS ByteSource.vConsume : R AbsSrc _) := by
  refine .lift fun c a c' h => ?_
  obtain ⟨r, t, acc⟩ := c
  cases r <;> cases h
  exact Nat.le_succ _
theorem Pot.vNew : Pot (liftS ByteSource.vNew : R AbsSrc _) := .lift fun c a c' h => by cases h; exact Nat.le_refl _
theorem Pot.vSkipPrevious : Pot (liftS ByteSource.vSkipPrevious : R AbsSrc _) := .lift fun c a c' h => by cases h; exact Nat.le_refl _
theorem Pot.vSkipFinal : Pot (liftS ByteSource.vSkipFinal : R AbsSrc _) := .lift fun c a c' h => by cases h; exact Nat.le_refl _
theorem Pot.vPush {bs : Bytes} : Pot (liftS (ByteSource.vPush bs) : R AbsSrc _) := .lift fun c a c' h => by cases h; exact Nat.le_refl _
theorem Pot.vGet {b : Bool} : Pot (liftS (ByteSource.vGet b) : R AbsSrc _) := .lift fun c a c' h => by cases h; exact Nat.le_refl _
theorem Pot.getStr : Pot (liftS ByteSource.getStr : R AbsSrc _) := by
  refine .lift fun c a c' h => ?_
  dsimp only [ByteSource.getStr] at h
  unfold AbsSrc.getStr at h
  dsimp only at h
  cases hu : Utf8.toStrUnchecked c.acc <;> rw [hu] at h <;> cases h
  exact Nat.le_refl _
theorem Pot.getString : Pot (liftS ByteSource.getString : R AbsSrc _) := Pot.getStr
theorem Pot.getStrPeek : Pot (liftS ByteSource.getStrPeek : R AbsSrc _) := by
  refine .lift fun c a c' h => ?_
  dsimp only [ByteSource.getStrPeek] at h
  unfold AbsSrc.getStrPeek at h
  dsimp only at h
  cases hu : Utf8.toStrUnchecked c.acc <;> rw [hu] at h <;> cases h
  exact Nat.le_refl _
end

macro "pot1" : tactic => `(tactic| first
  | (with_reducible assumption) | (with_reducible exact Pot.pure _) | (with_reducible exact Pot.fail) | (with_reducible exact Pot.syn) | (with_reducible exact Pot.structure)
  | (with_reducible exact Pot.io) | (with_reducible exact Pot.usage) | (with_reducible exact Pot.internal) | (with_reducible exact Pot.unwrap) | (with_reducible exact Pot.adv)
  | (with_reducible exact Pot.peekByte) | (with_reducible exact Pot.skipPeekedByte) | (with_reducible exact Pot.vPeek) | (with_reducible exact Pot.vConsume) | (with_reducible exact Pot.vNew)
  | (with_reducible exact Pot.vSkipPrevious) | (with_reducible exact Pot.vSkipFinal) | (with_reducible exact Pot.vPush) | (with_reducible exact Pot.vGet) | (with_reducible exact Pot.getStr)
  | (with_reducible exact Pot.getString) | (with_reducible exact Pot.getStrPeek) | (with_reducible exact Pot.modify (fun _ => rfl) fun _ => rfl)
  | (with_reducible refine Pot.get fun _ => ?_) | (with_reducible refine Pot.bind ?_ fun _ => ?_) | (with_reducible refine Pot.ite ?_ ?_) | split | (show Pot _; dsimp only))

macro "pot" : tactic => `(tactic| repeat (any_goals pot1))

theorem pot_readByte {k : SyntaxKind} : Pot (readByte k : R AbsSrc _) := by unfold readByte; pot

section
variable {rb : SyntaxKind → R AbsSrc UInt8} (hrb : ∀ k, Pot (rb k))
include hrb
theorem pot_multibyte {b : UInt8} : Pot (readUtf8Multibyte rb b) := by
  have hc : ∀ o bs, Pot (checkValid o bs : R AbsSrc _) := by intro o bs; unfold checkValid; pot
  unfold readUtf8Multibyte; pot <;> first | exact hrb _ | exact hc _ _
theorem pot_hex : Pot (readHexByte rb) := by unfold readHexByte parseHexDigit; pot; exact hrb _
theorem pot_escape : Pot (readUnicodeEscape rb) := by
  have := pot_hex hrb
  unfold readUnicodeEscape; pot
theorem pot_escapeChar : Pot (readUnicodeEscapeChar rb) := by
  have := pot_escape hrb
  unfold readUnicodeEscapeChar readLowSurrogate escapedChar; pot <;> exact hrb _
end

theorem pot_readStringBytes : Pot (readStringBytes : R AbsSrc _) := by
  have h1 : ∀ k, Pot (readByte k : R AbsSrc _) := fun _ => pot_readByte
  have h2 := pot_escapeChar h1
  have h3 : ∀ b, Pot (readUtf8Multibyte readByte b : R AbsSrc _) := fun _ => pot_multibyte h1
  unfold readStringBytes; pot <;> first | exact h1 _ | exact h3 _

theorem pot_skipAllStringBytes : Pot (skipAllStringBytes : R AbsSrc _) := by
  have : ∀ n, Pot (skipAllStringBytesLoop n : R AbsSrc _) := by
    intro n
    induction n with
    | zero => exact .fail
    | succ n ih =>
      have := pot_readStringBytes
      unfold skipAllStringBytesLoop; pot
  unfold skipAllStringBytes
  exact .get fun s => this _

theorem pot_vReadByte {k : SyntaxKind} : Pot (vReadByte k : R AbsSrc _) := by unfold vReadByte; pot
theorem pot_vReadByteSkip {k : SyntaxKind} : Pot (vReadByteSkip k : R AbsSrc _) := by
  have := @pot_vReadByte k
  unfold vReadByteSkip; pot

theorem pot_readString {rbw : Bool} : Pot (readString rbw : R AbsSrc _) := by
  have h1 : ∀ k, Pot (vReadByte k : R AbsSrc _) := fun _ => pot_vReadByte
  have h2 : Pot (readUnicodeEscapeChar vReadByteSkip : R AbsSrc _) := pot_escapeChar fun _ => pot_vReadByteSkip
  have h3 : ∀ b, Pot (readUtf8Multibyte vReadByte b : R AbsSrc _) := fun _ => pot_multibyte h1
  have h4 : Pot (readStringEscape : R AbsSrc _) := by unfold readStringEscape; pot; exact h1 _
  have h5 : ∀ n, Pot (readStringLoop rbw n : R AbsSrc _) := by
    intro n
    induction n with
    | zero => exact .fail
    | succ n ih => unfold readStringLoop; pot <;> first | exact h1 _ | exact h3 _
  unfold readString
  pot
  exact h5 _

theorem pot_onValueEnd : Pot (onValueEnd : R AbsSrc _) := by
  rw [onValueEnd_eq]
  refine .get fun s => .bind ?_ fun p => .modify (fun _ => rfl) fun _ => rfl
  pot

theorem pot_setPathName {t : Text} : Pot (setPathName t : R AbsSrc _) := by
  unfold setPathName
  refine .get' fun s => ?_
  cases hp : s.path with
  | none => exact Nat.le_refl _
  | some ps =>
    cases ps with
    | nil => exact nofun
    | cons p ps => cases p <;> first | exact Nat.le_refl _ | exact nofun

theorem pot_onContainerEnd : Pot (onContainerEnd : R AbsSrc _) := by
  have := pot_onValueEnd
  unfold onContainerEnd; pot

theorem pot_verify {k : SyntaxKind} : Pot (verifyValueSeparator k : R AbsSrc _) := by unfold verifyValueSeparator; pot

theorem pot_finishNumber {n : Nat} : Pot (finishNumber n : R AbsSrc _) := by
  have := pot_onValueEnd
  have := @pot_verify .trailingDataAfterNumber
  unfold finishNumber; pot

/-! ## Numbers -/

section
variable {S : Type}

/-- all errors are fatal -/
def FatalM {α : Type} (m : M RErr S α) : Prop := ∀ s e s', m.run s = .err e s' → e.fatal = true

theorem FatalM.bind {α β : Type} {m : M RErr S α} {f : α → M RErr S β} (h : FatalM m) (hf : ∀ a, FatalM (f a)) : FatalM (m >>= f) := by
  intro s e s' hr
  rcases M.bind_eq_err.1 hr with h1 | ⟨a, s1, _, h2⟩
  · exact h _ _ _ h1
  · exact hf a _ _ _ h2
theorem FatalM.pure {α : Type} (a : α) : FatalM (pure a : M RErr S α) := fun _ _ _ h => by cases h
theorem FatalM.oof {α : Type} : FatalM (M.fail .outOfFuel : M RErr S α) := fun _ _ _ h => by cases h; rfl
theorem FatalM.ite {α : Type} {c : Prop} [Decidable c] {m1 m2 : M RErr S α} (h1 : FatalM m1) (h2 : FatalM m2) : FatalM (if c then m1 else m2) := by
  split
  · exact h1
  · exact h2

variable {next : M RErr S (Option UInt8)} (hn : FatalM next)
include hn
open JsonNumber

theorem fatalM_digits (n : Nat) : FatalM (consumeDigits next .outOfFuel n) := by
  induction n with
  | zero => exact .oof
  | succ n ih =>
    unfold consumeDigits
    refine hn.bind fun o => ?_
    cases o with
    | none => exact .pure _
    | some b => exact .ite ih (.pure _)

theorem fatalM_expDigits (n c : Nat) : FatalM (consumeExpDigits next .outOfFuel n c) := by
  induction n generalizing c with
  | zero => exact .oof
  | succ n ih =>
    unfold consumeExpDigits
    refine hn.bind fun o => ?_
    cases o with
    | none => exact .pure _
    | some b => exact .ite (ih _) (.pure _)

omit hn in
theorem fatalM_finish (c : Nat) (b : UInt8) : FatalM (finish c b : M RErr S _) := by
  unfold finish
  exact .ite (.pure _) (.pure _)

theorem fatalM_exponentDigits (n : Nat) (b : UInt8) : FatalM (exponentDigits next .outOfFuel n b) := by
  unfold exponentDigits
  refine .ite ((fatalM_expDigits hn _ _).bind fun o => ?_) (.pure _)
  obtain ⟨c, o⟩ := o
  cases o with
  | none => exact .pure _
  | some b => exact fatalM_finish _ _

theorem fatalM_exponentPart (n : Nat) (b : UInt8) : FatalM (exponentPart next .outOfFuel n b) := by
  unfold exponentPart
  refine .ite (hn.bind fun o => ?_) (fatalM_finish _ _)
  cases o with
  | none => exact .pure _
  | some b =>
    refine .ite (hn.bind fun o => ?_) (fatalM_exponentDigits hn _ _)
    cases o with
    | none => exact .pure _
    | some b => exact fatalM_exponentDigits hn _ _

theorem fatalM_fractionPart (n : Nat) (b : UInt8) : FatalM (fractionPart next .outOfFuel n b) := by
  unfold fractionPart
  refine .ite (hn.bind fun o => ?_) (fatalM_exponentPart hn _ _)
  cases o with
  | none => exact .pure _
  | some b =>
    refine .ite ((fatalM_digits hn _).bind fun o => ?_) (.pure _)
    cases o with
    | none => exact .pure _
    | some b => exact fatalM_exponentPart hn _ _

theorem fatalM_integerPart (n : Nat) (b : UInt8) : FatalM (integerPart next .outOfFuel n b) := by
  unfold integerPart
  refine .ite ((fatalM_digits hn _).bind fun o => ?_) (.ite (hn.bind fun o => ?_) (.pure _)) <;>
  · cases o with
    | none => exact .pure _
    | some b => exact fatalM_fractionPart hn _ _

theorem fatalM_consumeJsonNumber (n : Nat) (b : UInt8) : FatalM (consumeJsonNumber next .outOfFuel n b) := by
  unfold consumeJsonNumber
  refine .ite (hn.bind fun o => ?_) (fatalM_integerPart hn _ _)
  cases o with
  | none => exact .pure _
  | some b => exact fatalM_integerPart hn _ _

end

theorem fatal_consumeNumber {create consume : R AbsSrc Unit} {peek : R AbsSrc (Option UInt8)} (h1 : Fatal create) (h2 : Fatal consume) (h3 : Fatal peek) :
    Fatal (consumeNumber create consume peek) := by
  unfold consumeNumber
  refine .bind (.lift _) fun o => .bind .unwrap fun b => .bind h1 fun _ => .bind ?_ fun r => ?_
  · intro s e s' h
    dsimp only at h
    split at h
    · cases h
    · rename_i hc
      cases h
      refine fatalM_consumeJsonNumber ?_ _ _ _ _ _ hc
      intro s e s' h
      unfold numberNext at h
      dsimp only at h
      split at h
      · cases h
      · rename_i h'
        cases h
        exact (h2.bind fun _ => h3) _ _ _ h'
  · split
    · exact .syn
    · exact .pure _

/-- every counted byte of a number is consumed -/
def RestCnt (s s' : St × Nat) : Prop := s'.1.src.rest.length + s'.2 ≤ s.1.src.rest.length + s.2
instance : Pre RestCnt := ⟨fun _ => Nat.le_refl _, fun h h' => Nat.le_trans h' h⟩

/-- `m` consumes a byte -/
def Eats1 {α : Type} (m : R AbsSrc α) : Prop := ∀ s a s', m.run s = .ok a s' → s'.src.rest.length + 1 ≤ s.src.rest.length

theorem eats_skipPeekedByte : Eats1 (skipPeekedByte : R AbsSrc _) := by
  rintro ⟨⟨r, t, acc⟩, pk, e, mn, stk, sa, l, col, b, pa, se⟩ a s' h
  cases r <;> cases h
  exact Nat.le_refl _

theorem eats_vConsume : Eats1 (liftS ByteSource.vConsume : R AbsSrc _) := by
  rintro ⟨⟨r, t, acc⟩, pk, e, mn, stk, sa, l, col, b, pa, se⟩ a s' h
  cases r <;> cases h
  exact Nat.le_refl _

/-- the number of bytes which are left becomes less -/
theorem consumeNumber_left {create consume : R AbsSrc Unit} {peek : R AbsSrc (Option UInt8)} {s s' : St} {r : Nat × Nat}
    (hc : ∀ s a s', create.run s = .ok a s' → s'.src.rest = s.src.rest) (he : Eats1 consume) (hp : ∀ s a s', peek.run s = .ok a s' → s' = s)
    (h : (consumeNumber create consume peek).run s = .ok r s') : s'.src.rest.length + 1 ≤ s.src.rest.length := by
  have hpos := consumeNumber_pos h
  unfold consumeNumber at h
  obtain ⟨o, s1, h1, h'⟩ := M.bind_eq_ok.1 h
  clear h
  obtain ⟨b, s2, h2, h⟩ := M.bind_eq_ok.1 h'
  clear h'
  obtain ⟨_, s3, h3, h'⟩ := M.bind_eq_ok.1 h
  clear h
  obtain ⟨⟨r1, n⟩, s4, h4, h⟩ := M.bind_eq_ok.1 h'
  clear h'
  obtain ⟨rfl, rfl, _⟩ := peekByte_ok h1
  have h2' : s2 = s1 := by
    cases hr : s1.src.rest.head? with
    | none => rw [hr] at h2; cases h2
    | some b => rw [hr] at h2; cases h2; rfl
  subst h2'
  have h3 := hc _ _ _ h3
  dsimp only at h4
  split at h4
  · rename_i r' s'' n' hj
    injection h4 with h4 h5
    injection h4 with h4 h6
    subst h4 h5 h6
    have := tr_consumeJsonNumber (R := RestCnt) (next := numberNext consume peek) (by
      intro s a s' h
      unfold numberNext at h
      dsimp only at h
      split at h
      · rename_i h'
        injection h with _ h
        subst h
        obtain ⟨_, t, h5, h6⟩ := M.bind_eq_ok.1 h'
        have := he _ _ _ h5
        have h7 := congrArg (fun x : St => x.src.rest.length) (hp _ _ _ h6)
        unfold RestCnt
        dsimp only
        omega
      · cases h) _ _ _ _ _ hj
    unfold RestCnt at this
    dsimp only at this
    cases r' with
    | none => cases h
    | some c =>
      cases h
      rw [h3] at this
      dsimp only at hpos
      omega
  · cases h4

theorem pot_consumeNumber {create consume : R AbsSrc Unit} {peek : R AbsSrc (Option UInt8)} (k1 : Kp create) (k2 : Kp consume) (k3 : Kp peek)
    (l1 : Loc create create) (l2 : Loc consume consume) (l3 : Loc peek peek) (f1 : Fatal create) (f2 : Fatal consume) (f3 : Fatal peek) :
    Pot (consumeNumber create consume peek) := .of_loc (loc_consumeNumber l1 l2 l3) (kp_consumeNumber k1 k2 k3) (fatal_consumeNumber f1 f2 f3)

/-! ## Tokens -/

/-- a literal consumes its bytes -/
theorem lit_rest {bs : Bytes} {s s' : St} {u : Unit} (h : (consumeLiteral bs : R AbsSrc _).run s = .ok u s') : s'.src.rest.length + bs.length ≤ s.src.rest.length := by
  have h1 : ∀ (bs : Bytes) (s s' : St) (u : Unit), (consumeLiteralBytes bs : R AbsSrc _).run s = .ok u s' → s'.src.rest.length + bs.length ≤ s.src.rest.length := by
    intro bs
    induction bs with
    | nil => intro s s' u h; cases h; exact Nat.le_refl _
    | cons b bs ih =>
      intro s s' u h
      rw [consumeLiteralBytes] at h
      obtain ⟨c, s1, h1, h2⟩ := M.bind_eq_ok.1 h
      have h3 : s1.src.rest.length + 1 ≤ s.src.rest.length := by
        unfold readByte at h1
        obtain ⟨o, t, h4, h5⟩ := M.bind_eq_ok.1 h1
        obtain ⟨rfl, rfl, _⟩ := peekByte_ok h4
        cases hr : t.src.rest.head? with
        | none => rw [hr] at h5; cases h5
        | some x =>
          rw [hr] at h5
          obtain ⟨_, t1, h6, h7⟩ := M.bind_eq_ok.1 h5
          cases h7
          exact eats_skipPeekedByte _ _ _ h6
      split at h2
      · cases h2
      · have := ih _ _ _ h2
        rw [List.length_cons]
        omega
  unfold consumeLiteral at h
  obtain ⟨_, s1, h2, h3⟩ := M.bind_eq_ok.1 h
  have := h1 _ _ _ _ h2
  have h4 : s' = s1 := by
    unfold verifyValueSeparator at h3
    obtain ⟨o, t, h4, h5⟩ := M.bind_eq_ok.1 h3
    obtain ⟨rfl, _, _⟩ := peekByte_ok h4
    split at h5
    · split at h5
      · cases h5; rfl
      · cases h5
    · cases h5; rfl
  rw [h4]
  exact this

/-- bytes consumed when the type of a token is determined -/
def Tok (m : R AbsSrc (Peeked × Bool)) : Prop := ∀ s p s', m.run s = .ok p s' → s'.src.rest.length + peekedLength p.1 ≤ s.src.rest.length + (if p.2 then 1 else 0)

theorem Tok.ite {c : Prop} [Decidable c] {m1 m2 : R AbsSrc (Peeked × Bool)} (h1 : Tok m1) (h2 : Tok m2) : Tok (if c then m1 else m2) := by
  split
  · exact h1
  · exact h2

theorem Tok.pure {q : Peeked × Bool} (hq : peekedLength q.1 = (if q.2 then 1 else 0)) : Tok (pure q) := by
  intro s p s' h
  cases h
  rw [hq]
  exact Nat.le_refl _

theorem Tok.lit {bs : Bytes} {q : Peeked} (hq : peekedLength q = bs.length) : Tok (do consumeLiteral bs; Pure.pure (q, false)) := by
  intro s p s' h
  obtain ⟨_, s1, h1, h2⟩ := M.bind_eq_ok.1 h
  cases h2
  have := lit_rest h1
  show s'.src.rest.length + peekedLength q ≤ s.src.rest.length + 0
  omega

theorem Tok.syn {k : SyntaxKind} : Tok (syntaxErr k) := by
  intro s p s' h
  cases h

theorem classify_rest {b : UInt8} : Tok (classify b) := by
  intro s p s' h
  unfold classify at h
  rw [run_get] at h
  revert h
  generalize isInArray s = x
  generalize s.expectsMemberName = y
  revert p s'
  have : ∀ m : R AbsSrc (Peeked × Bool), Tok m → ∀ p s', m.run s = .ok p s' → s'.src.rest.length + peekedLength p.1 ≤ s.src.rest.length + (if p.2 then 1 else 0) := fun m h p s' => h s p s'
  refine this _ ?_
  exact .ite (.ite (.pure rfl) (.ite (.pure rfl) .syn)) (.ite (.pure rfl) (.ite (.ite .syn (.pure rfl)) (.ite (.pure rfl) (.ite .syn (.ite (.pure rfl)
    (.ite (.pure rfl) (.ite (.lit rfl) (.ite (.lit rfl) (.ite (.lit rfl) (.ite .syn (.ite .syn .syn)))))))))))

theorem finishPeek_rest {c : Bool} {q : Option (Nat × Nat × Nat)} {p : Peeked × Bool} {o : Option Peeked} {s s' : St} (h : (finishPeek c q p : R AbsSrc _).run s = .ok o s') :
    o = some p.1 ∧ s'.src.rest.length + (if p.2 then 1 else 0) ≤ s.src.rest.length := by
  have hs : ∀ {s : St} {s' : St} {o : Option Peeked}, (do (if p.2 then skipPeekedByte else pure ()); M.modify (fun s => { s with peeked := some p.1 }); pure (some p.1) : R AbsSrc (Option Peeked)).run s = .ok o s' →
      o = some p.1 ∧ s'.src.rest.length + (if p.2 then 1 else 0) ≤ s.src.rest.length := by
    intro s s' o h
    obtain ⟨_, s1, h1, h2⟩ := M.bind_eq_ok.1 h
    cases h2
    refine ⟨rfl, ?_⟩
    cases hp : p.2 with
    | false =>
      rw [hp] at h1
      cases h1
      exact Nat.le_refl _
    | true =>
      rw [hp, if_pos rfl] at h1
      exact (eats_skipPeekedByte _ _ _ h1 : s1.src.rest.length + 1 ≤ _)
  unfold finishPeek at h
  rw [run_get] at h
  dsimp only at h
  split at h
  · split at h
    · split at h
      · cases h
      · exact hs h
    · exact hs h
  · split at h
    · cases h
    · exact hs h

theorem peekToken_rest {s s' : St} {o : Option Peeked} (h : (peekToken : R AbsSrc _).run s = .ok o s') : s'.src.rest.length + pl o ≤ s.src.rest.length := by
  unfold peekToken at h
  obtain ⟨b, s1, h1, h'⟩ := M.bind_eq_ok.1 h
  clear h
  have hk := (keeps_ws _ _ _ h1).rest
  cases b with
  | none => cases h'; exact hk
  | some b =>
    dsimp only at h'
    rw [run_get] at h'
    have fin : ∀ {b c q} {t : St}, (classify b >>= finishPeek c q : R AbsSrc _).run t = .ok o s' → s'.src.rest.length + pl o ≤ t.src.rest.length := by
      intro b c q t h
      obtain ⟨p, t1, h2, h3⟩ := M.bind_eq_ok.1 h
      have h4 := classify_rest _ _ _ h2
      obtain ⟨rfl, h5⟩ := finishPeek_rest h3
      show s'.src.rest.length + peekedLength p.1 ≤ _
      omega
    split at h'
    · split at h'
      · cases h'
      · obtain ⟨_, s2, h2, h⟩ := M.bind_eq_ok.1 h'
        clear h'
        have e2 := eats_skipPeekedByte _ _ _ h2
        obtain ⟨_, s3, h3, h'⟩ := M.bind_eq_ok.1 h
        clear h
        have e3 := (Keeps.adv _ _ _ h3).rest
        obtain ⟨_, s4, h4, h⟩ := M.bind_eq_ok.1 h'
        clear h'
        have e4 := (keeps_ws' _ _ _ h4).rest
        have := fin h
        omega
    · have := fin h'
      omega

theorem pot_pio : Pot (peekInternalOptional : R AbsSrc _) := by
  intro s
  cases h : (peekInternalOptional : R AbsSrc _).run s with
  | err e s' => intro hf; rw [fatal_pio _ _ _ h] at hf; cases hf
  | ok o s' =>
    dsimp only
    rcases pio_ok h with hk | ⟨rfl, _, _⟩
    · unfold left
      rw [hk.peeked]
      have : s'.src.rest.length + pl o ≤ s.src.rest.length ∨ (s' = s) := by
        unfold peekInternalOptional at h
        rw [run_get] at h
        split at h
        · cases h
        split at h
        · cases h; exact .inr rfl
        split at h
        · cases h
        split at h
        · obtain ⟨_, s1, h1, h2⟩ := M.bind_eq_ok.1 h
          have := (keeps_afterName _ _ _ h1).rest
          have := peekToken_rest h2
          exact .inl (by omega)
        · exact .inl (peekToken_rest h)
      rcases this with h1 | rfl
      · omega
      · rw [hk.peeked]; exact Nat.le_refl _
    · exact Nat.le_refl _

theorem pot_peekInternal : Pot (peekInternal : R AbsSrc _) := by
  have := pot_pio
  unfold peekInternal; pot

theorem pot_consumePeeked : Pot (consumePeeked : R AbsSrc _) := by
  unfold consumePeeked
  refine .get' fun s => ?_
  cases hp : s.peeked with
  | none => exact fun _ => Nat.le_refl _
  | some p =>
    show s.src.rest.length + 0 ≤ s.src.rest.length + pl s.peeked
    omega

theorem pot_mapPeeked {p : Peeked} : Pot (mapPeeked p : R AbsSrc _) := by
  cases p <;> first | exact .pure _ | exact .internal | exact .structure

theorem pot_start {v : ValueType} {c : Bool} : Pot (startExpectedValueType v c : R AbsSrc _) := by
  have := pot_peekInternal
  have := pot_consumePeeked
  unfold startExpectedValueType
  pot <;> exact pot_mapPeeked

theorem pot_begin {v : ValueType} {x : StackValue} : Pot (onContainerStart v x : R AbsSrc _) := by
  unfold onContainerStart
  exact pot_start.bind fun _ => .modify (fun _ => rfl) fun _ => rfl
theorem pot_beginArray : Pot (beginArray : R AbsSrc _) := by
  unfold beginArray
  exact pot_begin.bind fun _ => .modify (fun _ => rfl) fun _ => rfl
theorem pot_beginObject : Pot (beginObject : R AbsSrc _) := by
  unfold beginObject
  exact pot_begin.bind fun _ => .modify (fun _ => rfl) fun _ => rfl
theorem pot_endArray : Pot (endArray : R AbsSrc _) := by
  have := pot_peekInternal
  have := pot_consumePeeked
  have := pot_onContainerEnd
  unfold endArray; pot
theorem pot_endObject : Pot (endObject : R AbsSrc _) := by
  have := pot_peekInternal
  have := pot_consumePeeked
  have := pot_onContainerEnd
  unfold endObject; pot
theorem pot_peek : Pot (peek : R AbsSrc _) := by
  have := pot_peekInternal
  unfold peek; pot; exact pot_mapPeeked
theorem pot_hasNext : Pot (hasNext : R AbsSrc _) := by
  have := pot_peekInternal
  have := pot_pio
  unfold hasNext; pot
theorem pot_beforeName : Pot (beforeName : R AbsSrc _) := by
  have := pot_hasNext
  have := pot_consumePeeked
  unfold beforeName; pot
theorem pot_nextNameOwned : Pot (nextNameOwned : R AbsSrc _) := by
  have := pot_beforeName
  unfold nextNameOwned; pot <;> first | exact pot_readString | exact pot_setPathName
theorem pot_nextName : Pot (nextName : R AbsSrc _) := by
  have := pot_beforeName
  unfold nextName; pot <;> first | exact pot_readString | exact pot_setPathName
theorem pot_skipName : Pot (skipName : R AbsSrc _) := by
  have := pot_beforeName
  have := pot_skipAllStringBytes
  unfold skipName; pot <;> first | exact pot_readString | exact pot_setPathName
theorem pot_nextBool : Pot (nextBool : R AbsSrc _) := by
  have := pot_onValueEnd
  unfold nextBool; pot; exact pot_start
theorem pot_nextNull : Pot (nextNull : R AbsSrc _) := by
  unfold nextNull; exact pot_start.bind fun _ => pot_onValueEnd
theorem pot_nextString : Pot (nextString : R AbsSrc _) := by
  have := pot_onValueEnd
  unfold nextString; pot <;> first | exact pot_readString | exact pot_start
theorem pot_nextStr : Pot (nextStr : R AbsSrc _) := by
  have := pot_onValueEnd
  unfold nextStr; pot <;> first | exact pot_readString | exact pot_start
theorem pot_readNumberBytes {b : Bool} : Pot (readNumberBytes b : R AbsSrc _) := by
  have := pot_consumeNumber (create := liftS ByteSource.vNew) (consume := liftS ByteSource.vConsume) (peek := vPeek) .liftS .liftS .vPeek .vNew .vConsume .vPeek (.lift _) (.lift _) (.lift _)
  unfold readNumberBytes; pot <;> first | exact pot_start | exact pot_finishNumber
theorem pot_skipNumber : Pot (skipNumber : R AbsSrc _) := by
  have := pot_consumeNumber (create := pure ()) (consume := skipPeekedByte) (peek := peekByte) (.pure _) .skipPeekedByte .peekByte (.pure _) .skipPeekedByte .peekByte (.pure _) (.lift _) (.lift _)
  unfold skipNumber; pot <;> first | exact pot_start | exact pot_finishNumber
theorem pot_skipValueStart : Pot (skipValueStart : R AbsSrc _) := by
  have := pot_peek
  have := pot_beginArray
  have := pot_beginObject
  have := pot_skipAllStringBytes
  have := pot_onValueEnd
  have := pot_skipNumber
  have := pot_nextBool
  have := pot_nextNull
  unfold skipValueStart; pot; exact pot_start
theorem pot_endContainer : Pot (endContainer : R AbsSrc _) := by
  have := pot_endArray
  have := pot_endObject
  unfold endContainer; pot
theorem pot_skipValueLoop (n : Nat) : ∀ d, Pot (skipValueLoop n d : R AbsSrc _) := by
  induction n with
  | zero => intro d; exact .fail
  | succ n ih =>
    intro d
    have := pot_endContainer
    have := pot_skipValueStart
    have := pot_hasNext
    have := pot_skipName
    unfold skipValueLoop atContainerEnd skipNameIfExpected
    pot
    exact ih _
theorem pot_skipValue : Pot (skipValue : R AbsSrc _) := by
  unfold skipValue
  exact .get fun s => .ite .usage (pot_skipValueLoop _ _)
theorem pot_skipItems (n : Nat) : Pot (skipItems n : R AbsSrc _) := by
  induction n with
  | zero => exact .fail
  | succ n ih =>
    have := pot_hasNext
    have := pot_skipValue
    unfold skipItems; pot
theorem pot_skipMembers (n : Nat) : Pot (skipMembers n : R AbsSrc _) := by
  induction n with
  | zero => exact .fail
  | succ n ih =>
    have := pot_hasNext
    have := pot_skipValue
    have := pot_skipName
    unfold skipMembers; pot
theorem pot_finishArray : Pot (finishArray : R AbsSrc _) := by
  have := pot_endArray
  unfold finishArray; pot; exact pot_skipItems _
theorem pot_finishObject : Pot (finishObject : R AbsSrc _) := by
  have := pot_endObject
  unfold finishObject; pot; exact pot_skipMembers _
theorem pot_skipToTopLevel : Pot (skipToTopLevel : R AbsSrc _) := by
  have h : ∀ n, Pot (skipToTopLevelLoop n : R AbsSrc _) := by
    intro n
    induction n with
    | zero => unfold skipToTopLevelLoop; pot
    | succ n ih =>
      have := pot_finishArray
      have := pot_finishObject
      unfold skipToTopLevelLoop; pot
  have := pot_skipValue
  unfold skipToTopLevel; pot; exact h _
theorem pot_seekItems (i n : Nat) : Pot (seekItems i n : R AbsSrc _) := by
  have := pot_hasNext
  have := pot_skipValue
  induction n with
  | zero => unfold seekItems; pot
  | succ n ih => unfold seekItems; pot
theorem pot_seekMembers (t : Text) (n : Nat) : Pot (seekMembers t n : R AbsSrc _) := by
  have := pot_hasNext
  have := pot_skipValue
  have := pot_nextName
  induction n with
  | zero => exact .fail
  | succ n ih => unfold seekMembers; pot
theorem pot_seekToLoop (p : List PathPiece) : Pot (seekToLoop p : R AbsSrc _) := by
  have := pot_beginArray
  have := pot_beginObject
  induction p with
  | nil => exact .pure _
  | cons p ps ih =>
    unfold seekToLoop seekToPiece
    cases p <;> pot <;> first | exact pot_seekItems _ _ | exact pot_seekMembers _ _
theorem pot_seekTo {path : List PathPiece} : Pot (seekTo path : R AbsSrc _) := by
  have := pot_peek
  unfold seekTo; pot; exact pot_seekToLoop _
theorem pot_seekBackLoop (p : List PathPiece) : Pot (seekBackLoop p : R AbsSrc _) := by
  have := pot_finishArray
  have := pot_finishObject
  induction p with
  | nil => exact .pure _
  | cons p ps ih => cases p <;> (unfold seekBackLoop; pot)
theorem pot_seekBack {path : List PathPiece} : Pot (seekBack path : R AbsSrc _) := pot_seekBackLoop _
theorem pot_strConsume (len : Nat) (bs : Bytes) : ∀ sr out, Pot (strConsume len bs sr out : R AbsSrc _) := by
  induction bs with
  | nil => intro sr out; exact .pure _
  | cons b bs ih =>
    intro sr out
    unfold strConsume
    pot <;> exact ih _ _
theorem pot_strReadLoop (len n : Nat) : ∀ sr out, Pot (strReadLoop len n sr out : R AbsSrc _) := by
  induction n with
  | zero => intro sr out; unfold strReadLoop; pot
  | succ n ih =>
    intro sr out
    have := pot_readStringBytes
    have := pot_onValueEnd
    unfold strReadLoop
    pot <;> first | exact pot_strConsume _ _ _ _ | exact ih _ _
theorem pot_strReadImpl (len : Nat) (sr : StrReader) : Pot (strReadImpl len sr : R AbsSrc _) := by
  unfold strReadImpl strDrain
  dsimp only
  pot
  exact pot_strReadLoop _ _ _ _
theorem pot_strReadsOk (lens : List Nat) : ∀ sr, Pot (strReadsOk lens sr : R AbsSrc _) := by
  induction lens with
  | nil => intro sr; exact .pure _
  | cons len lens ih =>
    intro sr
    unfold strReadsOk
    pot <;> first | exact pot_strReadImpl _ _ | exact ih _
theorem pot_trailing : Pot (consumeTrailingWhitespace : R AbsSrc _) := by
  have : Pot (skipWhitespace none : R AbsSrc _) := .of_loc loc_ws (fun _ _ _ h => (keeps_ws _ _ _ h).peeked) fatal_ws
  unfold consumeTrailingWhitespace; pot

theorem pot_runOp (op : Op) : Pot (runOp op : R AbsSrc _) := by
  cases op with
  | peek => exact pot_peek.bind fun _ => .pure _
  | hasNext => exact pot_hasNext.bind fun _ => .pure _
  | skipToTopLevel => exact pot_skipToTopLevel.bind fun _ => .pure _
  | seekTo => exact pot_seekTo.bind fun _ => .pure _
  | seekBack => exact pot_seekBack.bind fun _ => .pure _
  | currentPosition => exact .get fun _ => .pure _
  | consumeTrailingWhitespace => exact pot_trailing.bind fun _ => .pure _
  | beginArray => exact pot_beginArray.bind fun _ => .pure _
  | endArray => exact pot_endArray.bind fun _ => .pure _
  | beginObject => exact pot_beginObject.bind fun _ => .pure _
  | endObject => exact pot_endObject.bind fun _ => .pure _
  | nextName => exact pot_nextName.bind fun _ => .pure _
  | nextNameOwned => exact pot_nextNameOwned.bind fun _ => .pure _
  | nextString => exact pot_nextString.bind fun _ => .pure _
  | nextStr => exact pot_nextStr.bind fun _ => .pure _
  | stringReader lens =>
    refine Pot.bind ?_ fun sr => (pot_strReadsOk _ _).bind fun _ => .pure _
    unfold nextStringReader
    exact pot_start.bind fun _ => .bind (.modify (fun _ => rfl) fun _ => rfl) fun _ => .pure _
  | nextNumberAsStr => exact (pot_readNumberBytes.bind fun _ => .getStr).bind fun _ => .pure _
  | nextNumberAsString => exact (pot_readNumberBytes.bind fun _ => .getString).bind fun _ => .pure _
  | nextBool => exact pot_nextBool.bind fun _ => .pure _
  | nextNull => exact pot_nextNull.bind fun _ => .pure _
  | skipName => exact pot_skipName.bind fun _ => .pure _
  | skipValue => exact pot_skipValue.bind fun _ => .pure _

/-! ## Calls which read something -/

/-- less bytes are left after success -/
def Less {α : Type} (m : R AbsSrc α) : Prop := ∀ s a s', m.run s = .ok a s' → left s' < left s

section
variable {α β : Type} {m : R AbsSrc α} {f : α → R AbsSrc β}

theorem Less.after (h : Less m) (hf : ∀ a, Pot (f a)) : Less (m >>= f) := by
  intro s b s' hr
  obtain ⟨a, s1, h1, h2⟩ := M.bind_eq_ok.1 hr
  exact Nat.lt_of_le_of_lt ((hf a).ok h2) (h _ _ _ h1)

theorem Less.before (h : Pot m) (hf : ∀ a, Less (f a)) : Less (m >>= f) := by
  intro s b s' hr
  obtain ⟨a, s1, h1, h2⟩ := M.bind_eq_ok.1 hr
  exact Nat.lt_of_lt_of_le (hf a _ _ _ h2) (h.ok h1)

theorem Less.get {f : St → R AbsSrc β} (hf : ∀ s, Less (f s)) : Less (M.get >>= f) := by
  intro s a s' hr
  rw [run_get] at hr
  exact hf s _ _ _ hr

theorem Less.ite {c : Prop} [Decidable c] {m1 m2 : R AbsSrc α} (h1 : Less m1) (h2 : Less m2) : Less (if c then m1 else m2) := by
  split
  · exact h1
  · exact h2

theorem Less.usage {p : UsagePanic} : Less (usagePanic p : R AbsSrc α) := by
  intro s a s' h
  cases h
theorem Less.fail {e : RErr} : Less (M.fail e : R AbsSrc α) := by
  intro s a s' h
  cases h
end

theorem consumePeeked_left {s s' : St} {u : Unit} {p : Peeked} (hp : s.peeked = some p) (h : (consumePeeked : R AbsSrc _).run s = .ok u s') : left s' + peekedLength p = left s := by
  unfold consumePeeked at h
  rw [run_get, hp] at h
  cases h
  show s.src.rest.length + 0 + peekedLength p = s.src.rest.length + pl s.peeked
  rw [hp]
  rfl

theorem less_start {v : ValueType} {c : Bool} (hv : v ≠ .number) : Less (startExpectedValueType v c : R AbsSrc _) := by
  intro s p s' h
  have hv' := (start_ok h).2.2
  unfold startExpectedValueType at h
  rw [run_get] at h
  split at h
  · cases h
  obtain ⟨p1, s1, h1, h'⟩ := M.bind_eq_ok.1 h
  clear h
  obtain ⟨v1, s2, h2, h⟩ := M.bind_eq_ok.1 h'
  clear h'
  rw [run_get] at h
  have hs2 : s2 = s1 := by cases p1 <;> cases h2 <;> rfl
  subst hs2
  by_cases he : v1 = v
  · rw [if_pos (beq_iff_eq.2 he)] at h
    cases hd : (if c then depthExceeded s2 else none) with
    | some n => rw [hd] at h; cases h
    | none =>
      rw [hd] at h
      obtain ⟨_, s3, h3, h⟩ := M.bind_eq_ok.1 h
      cases h
      have h7 := peekInternal_ok h1
      have h8 := consumePeeked_left h7 h3
      have h9 := pot_peekInternal.ok h1
      have : 0 < peekedLength p := by
        cases p <;> first
          | exact Nat.succ_pos _
          | (exfalso
             have h4 := congrArg (fun m : R AbsSrc _ => m.run s) hv'
             injection h4 with h4
             exact hv h4.symm)
      omega
  · rw [if_neg (fun h => he (beq_iff_eq.1 h))] at h
    cases h

theorem less_beforeName : Less (beforeName : R AbsSrc _) := by
  intro s a s' h
  unfold beforeName at h
  rw [run_get] at h
  split at h
  · cases h
  · rename_i he
    split at h
    · cases h
    · obtain ⟨b, s1, h1, h2⟩ := M.bind_eq_ok.1 h
      clear h
      have h3 := pot_hasNext.ok h1
      cases b with
      | false => cases h2
      | true =>
        have h4 := hasNext_name (by cases hh : s.expectsMemberName <;> simp_all) h1
        obtain ⟨_, s2, h5, h6⟩ := M.bind_eq_ok.1 h2
        cases h5
        have h8 := consumePeeked_left (p := .nameStart) (by exact h4) h6
        change left s' + 1 = left s1 at h8
        omega

theorem less_end {k : StructureKind} {f : Unit → R AbsSrc Unit} {q : Peeked} (hq : 0 < peekedLength q) (hf : ∀ a, Pot (f a)) :
    Less (do
      let p ← peekInternal
      if p != q then structureErr k
      else do
        consumePeeked
        f ()) := by
  intro s a s' h
  obtain ⟨p, s1, h1, h2⟩ := M.bind_eq_ok.1 h
  clear h
  have h3 := pot_peekInternal.ok h1
  have h4 := peekInternal_ok h1
  split at h2
  · cases h2
  · rename_i hp
    have hp : p = q := by simpa using hp
    subst hp
    obtain ⟨_, s2, h5, h6⟩ := M.bind_eq_ok.1 h2
    have h7 := consumePeeked_left h4 h5
    have := (hf _).ok h6
    omega

theorem less_number {α : Type} {create consume : R AbsSrc Unit} {peek : R AbsSrc (Option UInt8)} {f : Nat × Nat → R AbsSrc α}
    (k1 : Kp create) (k2 : Kp consume) (k3 : Kp peek)
    (hc : ∀ s a s', create.run s = .ok a s' → s'.src.rest = s.src.rest) (he : Eats1 consume) (hp : ∀ s a s', peek.run s = .ok a s' → s' = s) (hf : ∀ r, Pot (f r)) :
    Less (do
      let _ ← startExpectedValueType .number false
      let r ← consumeNumber create consume peek
      f r) := by
  refine .before pot_start fun _ => .after ?_ hf
  intro s r s' h
  have h1 := consumeNumber_left hc he hp h
  have h2 : s'.peeked = s.peeked := kp_consumeNumber k1 k2 k3 _ _ _ h
  show s'.src.rest.length + pl s'.peeked < s.src.rest.length + pl s.peeked
  rw [h2]
  omega

theorem less_skipNumber : Less (skipNumber : R AbsSrc _) := by
  unfold skipNumber
  exact less_number (f := fun r => finishNumber r.2) (.pure _) .skipPeekedByte .peekByte (fun s a s' h => by cases h; rfl) eats_skipPeekedByte (fun s a s' h => (peekByte_ok h).1) fun _ => pot_finishNumber

theorem less_readNumberBytes {b : Bool} : Less (readNumberBytes b : R AbsSrc _) := by
  unfold readNumberBytes
  refine less_number (f := fun r => (do
    let s ← M.get
    if s.settings.restrictNumberValues && (r.1 > 2 || r.2 > 100) then do
      liftS (ByteSource.vGet false)
      let number ← liftS ByteSource.getString
      let s ← M.get
      M.fail (.unsupportedNumberValue number (loc s))
    else do
      liftS (ByteSource.vGet b)
      finishNumber r.2)) .liftS .liftS .vPeek (fun s a s' h => by cases h; rfl) eats_vConsume (fun s a s' h => (peekByte_ok h).1) (fun _ => ?_)
  pot
  exact pot_finishNumber

theorem less_beginArray : Less (beginArray : R AbsSrc _) := by
  unfold beginArray onContainerStart
  refine Less.after (Less.after (less_start (v := .array) nofun) fun _ => ?_) fun _ => ?_
  · exact .modify (fun _ => rfl) fun _ => rfl
  · exact .modify (fun _ => rfl) fun _ => rfl
theorem less_beginObject : Less (beginObject : R AbsSrc _) := by
  unfold beginObject onContainerStart
  refine Less.after (Less.after (less_start (v := .object) nofun) fun _ => ?_) fun _ => ?_
  · exact .modify (fun _ => rfl) fun _ => rfl
  · exact .modify (fun _ => rfl) fun _ => rfl
theorem less_endArray : Less (endArray : R AbsSrc _) := by
  unfold endArray
  exact .get fun s => .ite .usage (less_end (f := fun _ => onContainerEnd) (Nat.succ_pos _) fun _ => pot_onContainerEnd)
theorem less_endObject : Less (endObject : R AbsSrc _) := by
  unfold endObject
  exact .get fun s => .ite .usage (.ite .usage (less_end (f := fun _ => (do
      M.modify fun s => { s with expectsMemberName := false }
      onContainerEnd)) (Nat.succ_pos _) fun _ => .bind (.modify (fun _ => rfl) fun _ => rfl) fun _ => pot_onContainerEnd))
theorem less_nextBool : Less (nextBool : R AbsSrc _) := by
  have := pot_onValueEnd
  unfold nextBool
  refine (less_start (v := .boolean) nofun).after fun p => ?_
  pot
theorem less_nextNull : Less (nextNull : R AbsSrc _) := by
  unfold nextNull
  exact (less_start (v := .null) nofun).after fun _ => pot_onValueEnd
theorem less_nextString : Less (nextString : R AbsSrc _) := by
  have := pot_onValueEnd
  unfold nextString
  refine (less_start (v := .string) nofun).after fun p => ?_
  pot
  exact pot_readString
theorem less_nextStr : Less (nextStr : R AbsSrc _) := by
  have := pot_onValueEnd
  unfold nextStr
  refine (less_start (v := .string) nofun).after fun p => ?_
  pot
  exact pot_readString
theorem less_nextName : Less (nextName : R AbsSrc _) := by
  unfold nextName
  refine less_beforeName.after fun p => ?_
  pot <;> first | exact pot_readString | exact pot_setPathName
theorem less_nextNameOwned : Less (nextNameOwned : R AbsSrc _) := by
  unfold nextNameOwned
  refine less_beforeName.after fun p => ?_
  pot <;> first | exact pot_readString | exact pot_setPathName
theorem less_skipName : Less (skipName : R AbsSrc _) := by
  have := pot_skipAllStringBytes
  unfold skipName
  refine less_beforeName.after fun p => ?_
  pot <;> first | exact pot_readString | exact pot_setPathName
theorem less_skipValueStart : Less (skipValueStart : R AbsSrc _) := by
  unfold skipValueStart
  refine .before pot_peek fun v => ?_
  cases v with
  | array => exact less_beginArray.after fun _ => .pure _
  | object => exact less_beginObject.after fun _ => .pure _
  | string =>
    have := pot_onValueEnd
    have := pot_skipAllStringBytes
    refine (less_start (v := .string) nofun).after fun p => ?_
    pot
  | number => exact less_skipNumber.after fun _ => .pure _
  | boolean => exact less_nextBool.after fun _ => .pure _
  | null => exact less_nextNull.after fun _ => .pure _
theorem less_skipValueLoop (n : Nat) : ∀ d, Less (skipValueLoop n d : R AbsSrc _) := by
  cases n with
  | zero => intro d; exact .fail
  | succ n =>
    intro d
    have h0 := pot_hasNext
    have h1 := pot_skipName
    unfold skipValueLoop atContainerEnd skipNameIfExpected
    refine .before ?_ fun b => .after (.ite (.after ?_ fun _ => .pure _) (.before ?_ fun _ => less_skipValueStart.after fun _ => .pure _)) fun d' => ?_
    · pot
    · unfold endContainer
      exact .get fun s => .ite less_endArray less_endObject
    · pot
    · exact .ite (.pure _) (pot_skipValueLoop _ _)
theorem less_skipValue : Less (skipValue : R AbsSrc _) := by
  unfold skipValue
  exact .get fun s => .ite .usage (less_skipValueLoop _ _)

theorem less_runOp {op : Op} (h : reads op = true) : Less (runOp op : R AbsSrc _) := by
  cases op with
  | peek | hasNext | skipToTopLevel | seekTo | seekBack | currentPosition | consumeTrailingWhitespace => cases h
  | beginArray => exact less_beginArray.after fun _ => .pure _
  | endArray => exact less_endArray.after fun _ => .pure _
  | beginObject => exact less_beginObject.after fun _ => .pure _
  | endObject => exact less_endObject.after fun _ => .pure _
  | nextName => exact less_nextName.after fun _ => .pure _
  | nextNameOwned => exact less_nextNameOwned.after fun _ => .pure _
  | nextString => exact less_nextString.after fun _ => .pure _
  | nextStr => exact less_nextStr.after fun _ => .pure _
  | stringReader lens =>
    refine Less.after ?_ fun sr => (pot_strReadsOk _ _).bind fun _ => .pure _
    unfold nextStringReader
    exact (less_start (v := .string) nofun).after fun _ => .bind (.modify (fun _ => rfl) fun _ => rfl) fun _ => .pure _
  | nextNumberAsStr => exact (less_readNumberBytes.after fun _ => .getStr).after fun _ => .pure _
  | nextNumberAsString => exact (less_readNumberBytes.after fun _ => .getString).after fun _ => .pure _
  | nextBool => exact less_nextBool.after fun _ => .pure _
  | nextNull => exact less_nextNull.after fun _ => .pure _
  | skipName => exact less_skipName.after fun _ => .pure _
  | skipValue => exact less_skipValue.after fun _ => .pure _

end Verif.Abs
