import Verif.Proofs.Abs.Local
/-!
# Progress: successful calls which read something move the position forward, and nothing is peeked afterwards
-/

namespace Verif.Abs
open Reader

/-- relation between the states before and after a successful computation -/
def Tr {S α : Type} (R : S → S → Prop) (m : M RErr S α) : Prop := ∀ s a s', m.run s = .ok a s' → R s s'

class Pre {S : Type} (R : S → S → Prop) : Prop where
  refl : ∀ s, R s s
  trans : ∀ {a b c}, R a b → R b c → R a c

section
variable {S α β : Type} {R : S → S → Prop} [Pre R] {m : M RErr S α} {f : α → M RErr S β}

theorem Tr.bind (h : Tr R m) (hf : ∀ a, Tr R (f a)) : Tr R (m >>= f) := by
  intro s b s' hr
  obtain ⟨a, s1, h1, h2⟩ := M.bind_eq_ok.1 hr
  exact Pre.trans (h _ _ _ h1) (hf a _ _ _ h2)

theorem Tr.pure (a : α) : Tr R (pure a : M RErr S α) := by
  intro s b s' h
  cases h
  exact Pre.refl _

omit [Pre R] in
theorem Tr.fail {e : RErr} : Tr R (M.fail e : M RErr S α) := by
  intro s a s' h
  cases h

omit [Pre R] in
theorem Tr.ite {c : Prop} [Decidable c] {m1 m2 : M RErr S α} (h1 : Tr R m1) (h2 : Tr R m2) : Tr R (if c then m1 else m2) := by
  split
  · exact h1
  · exact h2

end

/-! ## Numbers -/

section
variable {S : Type} {R : S → S → Prop} [Pre R] {next : M RErr S (Option UInt8)} (hn : Tr R next)
include hn

theorem tr_consumeDigits (n : Nat) : Tr R (JsonNumber.consumeDigits next .outOfFuel n) := by
  induction n with
  | zero => exact .fail
  | succ n ih =>
    unfold JsonNumber.consumeDigits
    refine hn.bind fun o => ?_
    cases o with
    | none => exact .pure _
    | some b => exact .ite ih (.pure _)

theorem tr_consumeExpDigits (n c : Nat) : Tr R (JsonNumber.consumeExpDigits next .outOfFuel n c) := by
  induction n generalizing c with
  | zero => exact .fail
  | succ n ih =>
    unfold JsonNumber.consumeExpDigits
    refine hn.bind fun o => ?_
    cases o with
    | none => exact .pure _
    | some b => exact .ite (ih _) (.pure _)

omit hn in
theorem tr_finish (c : Nat) (b : UInt8) : Tr R (JsonNumber.finish c b : M RErr S _) := by
  unfold JsonNumber.finish
  exact .ite (.pure _) (.pure _)

theorem tr_exponentDigits (n : Nat) (b : UInt8) : Tr R (JsonNumber.exponentDigits next .outOfFuel n b) := by
  unfold JsonNumber.exponentDigits
  refine .ite ((tr_consumeExpDigits hn _ _).bind fun o => ?_) (.pure _)
  obtain ⟨c, o⟩ := o
  cases o with
  | none => exact .pure _
  | some b => exact tr_finish _ _

theorem tr_exponentPart (n : Nat) (b : UInt8) : Tr R (JsonNumber.exponentPart next .outOfFuel n b) := by
  unfold JsonNumber.exponentPart
  refine .ite (hn.bind fun o => ?_) (tr_finish _ _)
  cases o with
  | none => exact .pure _
  | some b =>
    refine .ite (hn.bind fun o => ?_) (tr_exponentDigits hn _ _)
    cases o with
    | none => exact .pure _
    | some b => exact tr_exponentDigits hn _ _

theorem tr_fractionPart (n : Nat) (b : UInt8) : Tr R (JsonNumber.fractionPart next .outOfFuel n b) := by
  unfold JsonNumber.fractionPart
  refine .ite (hn.bind fun o => ?_) (tr_exponentPart hn _ _)
  cases o with
  | none => exact .pure _
  | some b =>
    refine .ite ((tr_consumeDigits hn _).bind fun o => ?_) (.pure _)
    cases o with
    | none => exact .pure _
    | some b => exact tr_exponentPart hn _ _

theorem tr_integerPart (n : Nat) (b : UInt8) : Tr R (JsonNumber.integerPart next .outOfFuel n b) := by
  unfold JsonNumber.integerPart
  refine .ite ((tr_consumeDigits hn _).bind fun o => ?_) (.ite (hn.bind fun o => ?_) (.pure _)) <;>
  · cases o with
    | none => exact .pure _
    | some b => exact tr_fractionPart hn _ _

theorem tr_consumeJsonNumber (n : Nat) (b : UInt8) : Tr R (JsonNumber.consumeJsonNumber next .outOfFuel n b) := by
  unfold JsonNumber.consumeJsonNumber
  refine .ite (hn.bind fun o => ?_) (tr_integerPart hn _ _)
  cases o with
  | none => exact .pure _
  | some b => exact tr_integerPart hn _ _

end

/-- number of consumed bytes of a number -/
def CntLe (s s' : St × Nat) : Prop := s.2 ≤ s'.2
def CntLt (s s' : St × Nat) : Prop := s.2 < s'.2
instance : Pre CntLe := ⟨fun _ => Nat.le_refl _, Nat.le_trans⟩

theorem cnt_next {consume : R AbsSrc Unit} {peek : R AbsSrc (Option UInt8)} : Tr CntLt (numberNext consume peek) := by
  intro s a s' h
  unfold numberNext at h
  dsimp only at h
  split at h
  · injection h with _ h
    subst h
    exact Nat.lt_succ_self _
  · cases h

theorem Tr.lt_le {α : Type} {m : M RErr (St × Nat) α} (h : Tr CntLt m) : Tr CntLe m := fun s a s' hr => Nat.le_of_lt (h s a s' hr)

theorem Tr.lt_bind {α β : Type} {m : M RErr (St × Nat) α} {f : α → M RErr (St × Nat) β} (h : Tr CntLt m) (hf : ∀ a, Tr CntLe (f a)) : Tr CntLt (m >>= f) := by
  intro s b s' hr
  obtain ⟨a, s1, h1, h2⟩ := M.bind_eq_ok.1 hr
  exact Nat.lt_of_lt_of_le (h _ _ _ h1) (hf a _ _ _ h2)

theorem cnt_consumeDigits {next : M RErr (St × Nat) (Option UInt8)} (hn : Tr CntLt next) (n : Nat) : Tr CntLt (JsonNumber.consumeDigits next .outOfFuel n) := by
  cases n with
  | zero => exact .fail
  | succ n =>
    unfold JsonNumber.consumeDigits
    refine hn.lt_bind fun o => ?_
    cases o with
    | none => exact .pure _
    | some b => exact .ite (tr_consumeDigits hn.lt_le _) (.pure _)

/-- a number has at least one byte -/
theorem cnt_integerPart {next : M RErr (St × Nat) (Option UInt8)} (hn : Tr CntLt next) {n : Nat} {b : UInt8} {s s' : St × Nat} {k : Nat}
    (h : (JsonNumber.integerPart next .outOfFuel n b).run s = .ok (some k) s') : s.2 < s'.2 := by
  unfold JsonNumber.integerPart at h
  split at h
  · refine Tr.lt_bind (cnt_consumeDigits hn _) (fun o => ?_) _ _ _ h
    cases o with
    | none => exact .pure _
    | some b => exact tr_fractionPart hn.lt_le _ _
  · split at h
    · refine Tr.lt_bind hn (fun o => ?_) _ _ _ h
      cases o with
      | none => exact .pure _
      | some b => exact tr_fractionPart hn.lt_le _ _
    · cases h

theorem cnt_consumeJsonNumber {next : M RErr (St × Nat) (Option UInt8)} (hn : Tr CntLt next) {n : Nat} {b : UInt8} {s s' : St × Nat} {k : Nat}
    (h : (JsonNumber.consumeJsonNumber next .outOfFuel n b).run s = .ok (some k) s') : s.2 < s'.2 := by
  unfold JsonNumber.consumeJsonNumber at h
  split at h
  · refine Tr.lt_bind hn (fun o => ?_) _ _ _ h
    cases o with
    | none => exact .pure _
    | some b => exact tr_integerPart hn.lt_le _ _
  · exact cnt_integerPart hn h

theorem consumeNumber_pos {create consume : R AbsSrc Unit} {peek : R AbsSrc (Option UInt8)} {s s' : St} {r : Nat × Nat}
    (h : (consumeNumber create consume peek).run s = .ok r s') : 0 < r.2 := by
  unfold consumeNumber at h
  obtain ⟨_, s1, _, h⟩ := M.bind_eq_ok.1 h
  obtain ⟨_, s2, _, h⟩ := M.bind_eq_ok.1 h
  obtain ⟨_, s3, _, h⟩ := M.bind_eq_ok.1 h
  obtain ⟨⟨r1, n⟩, s4, h4, h⟩ := M.bind_eq_ok.1 h
  dsimp only at h4
  split at h4
  · rename_i r' s'' n' hc
    injection h4 with h4 h5
    injection h4 with h4 h6
    subst h4 h5 h6
    cases r' with
    | none => cases h
    | some c =>
      dsimp only at h
      cases h
      exact cnt_consumeJsonNumber cnt_next hc
  · cases h4

/-! ## The peeked token -/

/-- the peeked token does not change -/
def SamePk (s s' : St) : Prop := s'.peeked = s.peeked
instance : Pre SamePk := ⟨fun _ => rfl, fun h h' => h'.trans h⟩

def SamePk2 (s s' : St × Nat) : Prop := s'.1.peeked = s.1.peeked
instance : Pre SamePk2 := ⟨fun _ => rfl, fun h h' => h'.trans h⟩

abbrev Kp {α : Type} (m : R AbsSrc α) : Prop := Tr SamePk m

section
variable {α β : Type}
theorem Kp.get {f : St → R AbsSrc β} (h : ∀ s, Kp (f s)) : Kp (M.get >>= f) := by
  intro s a s' hr
  rw [run_get] at hr
  exact h s _ _ _ hr
theorem Kp.get' {f : St → R AbsSrc β} (h : ∀ s a s', (f s).run s = .ok a s' → s'.peeked = s.peeked) : Kp (M.get >>= f) := by
  intro s a s' hr
  rw [run_get] at hr
  exact h s _ _ hr
theorem Kp.modify {g : St → St} (h : ∀ s, (g s).peeked = s.peeked) : Kp (M.modify g : R AbsSrc Unit) := by
  intro s a s' hr
  cases hr
  exact h s
theorem Kp.syn {k : SyntaxKind} : Kp (syntaxErr k : R AbsSrc α) := by
  intro s a s' h
  cases h
theorem Kp.structure {k : StructureKind} : Kp (structureErr k : R AbsSrc α) := by
  intro s a s' h
  cases h
theorem Kp.io {e : IoErr} : Kp (ioErr e : R AbsSrc α) := by
  intro s a s' h
  cases h
theorem Kp.usage {p : UsagePanic} : Kp (usagePanic p : R AbsSrc α) := by
  intro s a s' h
  cases h
theorem Kp.internal {p : InternalPanic} : Kp (internalPanic p : R AbsSrc α) := by
  intro s a s' h
  cases h
theorem Kp.unwrap {o : Option α} : Kp (Reader.unwrap o : R AbsSrc α) := by
  cases o
  · exact Kp.internal
  · exact .pure _
theorem Kp.adv {a b : Nat} : Kp (advance a b : R AbsSrc Unit) := .modify fun _ => rfl
theorem Kp.liftS {m : M SrcErr AbsSrc α} : Kp (liftS m) := by
  intro s a s' hr
  unfold Reader.liftS at hr
  dsimp only at hr
  split at hr
  · cases hr
    rfl
  · cases hr
  · cases hr
theorem Kp.peekByte : Kp (peekByte : R AbsSrc _) := .liftS
theorem Kp.skipPeekedByte : Kp (skipPeekedByte : R AbsSrc _) := .liftS
theorem Kp.vPeek : Kp (vPeek : R AbsSrc _) := .liftS
end

macro "kp1" : tactic => `(tactic| first
  | (with_reducible assumption) | (with_reducible exact Tr.pure _) | (with_reducible exact Tr.fail) | (with_reducible exact Kp.syn) | (with_reducible exact Kp.structure)
  | (with_reducible exact Kp.io) | (with_reducible exact Kp.usage) | (with_reducible exact Kp.internal) | (with_reducible exact Kp.unwrap) | (with_reducible exact Kp.adv)
  | (with_reducible exact Kp.peekByte) | (with_reducible exact Kp.skipPeekedByte) | (with_reducible exact Kp.vPeek) | (with_reducible exact Kp.liftS) | (with_reducible refine Kp.modify fun _ => rfl)
  | (with_reducible refine Kp.get fun _ => ?_) | (with_reducible refine Tr.bind ?_ fun _ => ?_) | (with_reducible refine Tr.ite ?_ ?_) | split | (show Kp _; dsimp only))

macro "kp" : tactic => `(tactic| repeat (any_goals kp1))

theorem kp_readByte {k : SyntaxKind} : Kp (readByte k : R AbsSrc _) := by unfold readByte; kp

section
variable {rb : SyntaxKind → R AbsSrc UInt8} (hrb : ∀ k, Kp (rb k))
include hrb
theorem kp_multibyte {b : UInt8} : Kp (readUtf8Multibyte rb b) := by
  have hc : ∀ o bs, Kp (checkValid o bs : R AbsSrc _) := by intro o bs; unfold checkValid; kp
  unfold readUtf8Multibyte; kp <;> first | exact hrb _ | exact hc _ _
theorem kp_hex : Kp (readHexByte rb) := by unfold readHexByte parseHexDigit; kp; exact hrb _
theorem kp_escape : Kp (readUnicodeEscape rb) := by
  have := kp_hex hrb
  unfold readUnicodeEscape; kp
theorem kp_escapeChar : Kp (readUnicodeEscapeChar rb) := by
  have := kp_escape hrb
  unfold readUnicodeEscapeChar readLowSurrogate escapedChar; kp <;> exact hrb _
end

theorem kp_readStringBytes : Kp (readStringBytes : R AbsSrc _) := by
  have h1 : ∀ k, Kp (readByte k : R AbsSrc _) := fun _ => kp_readByte
  have h2 := kp_escapeChar h1
  have h3 : ∀ b, Kp (readUtf8Multibyte readByte b : R AbsSrc _) := fun _ => kp_multibyte h1
  unfold readStringBytes; kp <;> first | exact h1 _ | exact h3 _

theorem kp_skipAllStringBytes : Kp (skipAllStringBytes : R AbsSrc _) := by
  have : ∀ n, Kp (skipAllStringBytesLoop n : R AbsSrc _) := by
    intro n
    induction n with
    | zero => exact .fail
    | succ n ih =>
      have := kp_readStringBytes
      unfold skipAllStringBytesLoop; kp
  unfold skipAllStringBytes
  exact .get fun s => this _

theorem kp_vReadByte {k : SyntaxKind} : Kp (vReadByte k : R AbsSrc _) := by unfold vReadByte; kp
theorem kp_vReadByteSkip {k : SyntaxKind} : Kp (vReadByteSkip k : R AbsSrc _) := by
  have := @kp_vReadByte k
  unfold vReadByteSkip; kp

theorem kp_readString {rbw : Bool} : Kp (readString rbw : R AbsSrc _) := by
  have h1 : ∀ k, Kp (vReadByte k : R AbsSrc _) := fun _ => kp_vReadByte
  have h2 : Kp (readUnicodeEscapeChar vReadByteSkip : R AbsSrc _) := kp_escapeChar fun _ => kp_vReadByteSkip
  have h3 : ∀ b, Kp (readUtf8Multibyte vReadByte b : R AbsSrc _) := fun _ => kp_multibyte h1
  have h4 : Kp (readStringEscape : R AbsSrc _) := by unfold readStringEscape; kp; exact h1 _
  have h5 : ∀ n, Kp (readStringLoop rbw n : R AbsSrc _) := by
    intro n
    induction n with
    | zero => exact .fail
    | succ n ih => unfold readStringLoop; kp <;> first | exact h1 _ | exact h3 _
  unfold readString
  kp
  exact h5 _

theorem kp_onValueEnd : Kp (onValueEnd : R AbsSrc _) := by
  unfold onValueEnd
  refine Kp.get' fun s a s' h => ?_
  obtain ⟨p, s1, h1, h2⟩ := M.bind_eq_ok.1 h
  cases h2
  rfl

theorem kp_setPathName {t : Text} : Kp (setPathName t : R AbsSrc _) := by
  unfold setPathName
  refine Kp.get' fun s a s' h => ?_
  split at h
  · cases h; rfl
  · cases h; rfl
  · cases h
  · cases h

theorem kp_onContainerEnd : Kp (onContainerEnd : R AbsSrc _) := by
  have := kp_onValueEnd
  unfold onContainerEnd; kp

theorem kp_verify {k : SyntaxKind} : Kp (verifyValueSeparator k : R AbsSrc _) := by unfold verifyValueSeparator; kp

theorem kp_finishNumber {n : Nat} : Kp (finishNumber n : R AbsSrc _) := by
  have := kp_onValueEnd
  have := @kp_verify .trailingDataAfterNumber
  unfold finishNumber; kp

theorem kp_consumeNumber {create consume : R AbsSrc Unit} {peek : R AbsSrc (Option UInt8)} (h1 : Kp create) (h2 : Kp consume) (h3 : Kp peek) :
    Kp (consumeNumber create consume peek) := by
  unfold consumeNumber
  kp
  · intro s a s' h
    dsimp only at h
    split at h
    · rename_i hc
      cases h
      refine tr_consumeJsonNumber (R := SamePk2) ?_ _ _ _ _ _ hc
      intro s a s' h
      unfold numberNext at h
      dsimp only at h
      split at h
      · rename_i h'
        cases h
        exact (h2.bind fun _ => h3) _ _ _ h'
      · cases h
    · cases h

theorem kp_strReadsOk (lens : List Nat) : ∀ sr, Kp (strReadsOk lens sr : R AbsSrc _) := by
  have h1 : ∀ len bs sr out, Kp (strConsume len bs sr out : R AbsSrc _) := by
    intro len bs
    induction bs with
    | nil => intro sr out; exact .pure _
    | cons b bs ih =>
      intro sr out
      unfold strConsume
      kp <;> exact ih _ _
  have h2 : ∀ len n sr out, Kp (strReadLoop len n sr out : R AbsSrc _) := by
    intro len n
    induction n with
    | zero => intro sr out; unfold strReadLoop; kp
    | succ n ih =>
      intro sr out
      have := kp_readStringBytes
      have := kp_onValueEnd
      unfold strReadLoop
      kp <;> first | exact h1 _ _ _ _ | exact ih _ _
  have h3 : ∀ len sr, Kp (strReadImpl len sr : R AbsSrc _) := by
    intro len sr
    unfold strReadImpl strDrain
    dsimp only
    kp
    exact h2 _ _ _ _
  induction lens with
  | nil => intro sr; exact .pure _
  | cons len lens ih =>
    intro sr
    unfold strReadsOk
    kp <;> first | exact h3 _ _ | exact ih _

/-! ## Nothing peeked afterwards, and the position moves forward -/

/-- after a successful run nothing is peeked and the position is larger than before -/
def Fwd {α : Type} (m : R AbsSrc α) : Prop := ∀ s a s', m.run s = .ok a s' → s'.peeked = none ∧ s.bytePos < s'.bytePos

/-- the position does not decrease -/
def PosLe (s s' : St) : Prop := s.bytePos ≤ s'.bytePos
instance : Pre PosLe := ⟨fun _ => Nat.le_refl _, Nat.le_trans⟩

theorem Tr.of_loc {α : Type} {m m' : R AbsSrc α} (h : Loc m m') : Tr PosLe m := by
  intro s a s' hr
  have := h s
  unfold LocAt at this
  rw [hr] at this
  obtain ⟨q, _, h2, _⟩ := this
  exact h2

section
variable {α β : Type} {m : R AbsSrc α} {f : α → R AbsSrc β}

theorem Fwd.after (h : Fwd m) (hk : ∀ a, Kp (f a)) (hm : ∀ a, Tr PosLe (f a)) : Fwd (m >>= f) := by
  intro s b s' hr
  obtain ⟨a, s1, h1, h2⟩ := M.bind_eq_ok.1 hr
  obtain ⟨h3, h4⟩ := h _ _ _ h1
  exact ⟨(hk a _ _ _ h2).trans h3, Nat.lt_of_lt_of_le h4 (hm a _ _ _ h2)⟩

theorem Fwd.before (h : Tr PosLe m) (hf : ∀ a, Fwd (f a)) : Fwd (m >>= f) := by
  intro s b s' hr
  obtain ⟨a, s1, h1, h2⟩ := M.bind_eq_ok.1 hr
  obtain ⟨h3, h4⟩ := hf a _ _ _ h2
  exact ⟨h3, Nat.lt_of_le_of_lt (h _ _ _ h1) h4⟩

theorem Fwd.get {f : St → R AbsSrc β} (hf : ∀ s, Fwd (f s)) : Fwd (M.get >>= f) := by
  intro s a s' hr
  rw [run_get] at hr
  exact hf s _ _ _ hr

theorem Fwd.ite {c : Prop} [Decidable c] {m1 m2 : R AbsSrc α} (h1 : Fwd m1) (h2 : Fwd m2) : Fwd (if c then m1 else m2) := by
  split
  · exact h1
  · exact h2

theorem Fwd.fail {e : RErr} : Fwd (M.fail e : R AbsSrc α) := by
  intro s a s' h
  cases h
theorem Fwd.usage {p : UsagePanic} : Fwd (usagePanic p : R AbsSrc α) := by
  intro s a s' h
  cases h
theorem Fwd.structure {k : StructureKind} : Fwd (structureErr k : R AbsSrc α) := by
  intro s a s' h
  cases h
theorem Fwd.ok (h : Fwd m) (g : α → β) : Fwd (m >>= fun a => pure (g a)) := h.after (fun _ => .pure _) fun _ => .pure _
end

theorem consumePeeked_ok {s s' : St} {a : Unit} (h : (consumePeeked : R AbsSrc _).run s = .ok a s') :
    ∃ p, s.peeked = some p ∧ s'.peeked = none ∧ s'.bytePos = s.bytePos + peekedLength p := by
  unfold consumePeeked at h
  rw [run_get] at h
  obtain ⟨p, s1, h1, h2⟩ := M.bind_eq_ok.1 h
  cases hp : s.peeked with
  | none => rw [hp] at h1; cases h1
  | some p =>
    rw [hp] at h1
    cases h1
    cases h2
    exact ⟨p, rfl, rfl, rfl⟩

theorem start_ok {v : ValueType} {c : Bool} {s s' : St} {p : Peeked} (h : (startExpectedValueType v c : R AbsSrc _).run s = .ok p s') :
    s'.peeked = none ∧ s.bytePos + peekedLength p ≤ s'.bytePos ∧ (mapPeeked p : R AbsSrc _) = pure v := by
  unfold startExpectedValueType at h
  rw [run_get] at h
  split at h
  · cases h
  obtain ⟨p1, s1, h1, h'⟩ := M.bind_eq_ok.1 h
  clear h
  obtain ⟨v1, s2, h2, h⟩ := M.bind_eq_ok.1 h'
  clear h'
  rw [run_get] at h
  have hs2 : s2 = s1 ∧ (mapPeeked p1 : R AbsSrc _) = pure v1 := by cases p1 <;> cases h2 <;> exact ⟨rfl, rfl⟩
  obtain ⟨rfl, hv⟩ := hs2
  by_cases he : v1 = v
  · rw [if_pos (beq_iff_eq.2 he)] at h
    subst he
    cases hd : (if c then depthExceeded s2 else none) with
    | some n => rw [hd] at h; cases h
    | none =>
      rw [hd] at h
      obtain ⟨_, s3, h3, h⟩ := M.bind_eq_ok.1 h
      cases h
      obtain ⟨p2, h4, h5, h6⟩ := consumePeeked_ok h3
      have h7 := peekInternal_ok h1
      rw [h7] at h4
      cases h4
      have h8 : s.bytePos ≤ s2.bytePos := Tr.of_loc loc_peekInternal _ _ _ h1
      exact ⟨h5, by omega, hv⟩
  · rw [if_neg (fun h => he (beq_iff_eq.1 h))] at h
    cases h

theorem fwd_start {v : ValueType} {c : Bool} (hv : v ≠ .number) : Fwd (startExpectedValueType v c : R AbsSrc _) := by
  intro s p s' h
  obtain ⟨h1, h2, h3⟩ := start_ok h
  refine ⟨h1, ?_⟩
  have : 0 < peekedLength p := by
    cases p <;> first
      | exact Nat.succ_pos _
      | (exfalso
         have h4 := congrArg (fun m : R AbsSrc _ => m.run s) h3
         injection h4 with h4
         exact hv h4.symm)
  omega

/-- the start of a number is consumed without moving the position -/
theorem start_le {v : ValueType} {c : Bool} {s s' : St} {p : Peeked} (h : (startExpectedValueType v c : R AbsSrc _).run s = .ok p s') : s'.peeked = none ∧ s.bytePos ≤ s'.bytePos := by
  obtain ⟨h1, h2, _⟩ := start_ok h
  exact ⟨h1, by omega⟩

theorem pio_some {s s' : St} {p : Peeked} (h : (peekInternalOptional : R AbsSrc _).run s = .ok (some p) s') : s'.peeked = some p ∧ s'.expectsMemberName = s.expectsMemberName := by
  rcases pio_ok h with h | ⟨rfl, h, _⟩
  · exact ⟨h.peeked, h.emn⟩
  · exact ⟨h, rfl⟩

theorem pi_some {s s' : St} {p : Peeked} (h : (peekInternal : R AbsSrc _).run s = .ok p s') : s'.peeked = some p ∧ s'.expectsMemberName = s.expectsMemberName := by
  unfold peekInternal at h
  obtain ⟨o, s1, h1, h2⟩ := M.bind_eq_ok.1 h
  cases o with
  | some p' => cases h2; exact pio_some h1
  | none =>
    dsimp only at h2
    rw [run_get] at h2
    split at h2 <;> cases h2

theorem hasNext_name {s s' : St} (he : s.expectsMemberName = true) (h : (hasNext : R AbsSrc _).run s = .ok true s') : s'.peeked = some .nameStart := by
  unfold hasNext at h
  rw [run_get] at h
  split at h
  · cases h
  · obtain ⟨o, s1, h1, h2⟩ := M.bind_eq_ok.1 h
    clear h
    have h3 : ∀ p, o = some p → s1.peeked = some p ∧ s1.expectsMemberName = s.expectsMemberName := by
      rintro p rfl
      split at h1
      · split at h1
        · cases h1
        · split at h1
          · cases h1
          · exact pio_some h1
      · obtain ⟨p', s2, h4, h5⟩ := M.bind_eq_ok.1 h1
        cases h5
        exact pi_some h4
    cases o with
    | none => cases h2
    | some p =>
      obtain ⟨h4, h5⟩ := h3 p rfl
      dsimp only at h2
      rw [run_get] at h2
      rw [h5, he] at h2
      cases p <;> first | (cases h2; exact h4) | (cases h2; done) | skip

theorem fwd_beforeName : Fwd (beforeName : R AbsSrc _) := by
  intro s a s' h
  unfold beforeName at h
  rw [run_get] at h
  split at h
  · cases h
  · rename_i he
    split at h
    · cases h
    · obtain ⟨b, s1, h1, h2⟩ := M.bind_eq_ok.1 h
      clear h
      have h3 : s.bytePos ≤ s1.bytePos := Tr.of_loc loc_hasNext _ _ _ h1
      cases b with
      | false => cases h2
      | true =>
        have h4 := hasNext_name (by cases hh : s.expectsMemberName <;> simp_all) h1
        obtain ⟨_, s2, h5, h6⟩ := M.bind_eq_ok.1 h2
        cases h5
        obtain ⟨p, h7, h8, h9⟩ := consumePeeked_ok h6
        change s1.peeked = some p at h7
        rw [h4] at h7
        cases h7
        refine ⟨h8, ?_⟩
        rw [h9]
        exact Nat.lt_succ_of_le h3

theorem fwd_names : Fwd (nextName : R AbsSrc _) ∧ Fwd (nextNameOwned : R AbsSrc _) ∧ Fwd (skipName : R AbsSrc _) := by
  have h1 : ∀ b, Kp (readString b : R AbsSrc _) := fun _ => kp_readString
  have h2 : ∀ n, Kp (setPathName n : R AbsSrc _) := fun _ => kp_setPathName
  have h3 := kp_skipAllStringBytes
  have l1 : ∀ b, Loc (readString b : R AbsSrc _) (readString b) := fun _ => loc_readString
  have l2 : ∀ n, Loc (setPathName n : R AbsSrc _) (setPathName n) := fun _ => loc_setPathName
  have l3 := loc_skipAllStringBytes
  refine ⟨fwd_beforeName.after (fun _ => ?_) (fun _ => .of_loc (m' := ?_) ?_), fwd_beforeName.after (fun _ => ?_) (fun _ => .of_loc (m' := ?_) ?_), fwd_beforeName.after (fun _ => ?_) (fun _ => .of_loc (m' := ?_) ?_)⟩
  · kp <;> first | exact h1 _ | exact h2 _
  · exact (do
      readString true
      let s ← M.get
      (if s.path.isSome then do
        let name ← liftS ByteSource.getStrPeek
        setPathName name
      else pure ())
      liftS ByteSource.getStr)
  · loc <;> first | exact l1 _ | exact l2 _
  · kp <;> first | exact h1 _ | exact h2 _
  · exact (do
      readString false
      let name ← liftS ByteSource.getString
      setPathName name
      pure name)
  · loc <;> first | exact l1 _ | exact l2 _
  · kp <;> first | exact h1 _ | exact h2 _
  · exact (do
      let s ← M.get
      if s.path.isSome then do
        readString false
        let name ← liftS ByteSource.getString
        setPathName name
      else skipAllStringBytes)
  · loc <;> first | exact l1 _ | exact l2 _

theorem Fwd.after' {α β : Type} {m : R AbsSrc α} {f : α → R AbsSrc β} (h : Fwd m) (hk : ∀ a, Kp (f a)) (hl : ∀ a, Loc (f a) (f a)) : Fwd (m >>= f) :=
  h.after hk fun a => .of_loc (hl a)

theorem fwd_begin {v : ValueType} {x : StackValue} (hv : v ≠ .number) : Fwd (onContainerStart v x : R AbsSrc _) := by
  unfold onContainerStart
  exact (fwd_start hv).after' (fun _ => .modify fun _ => rfl) fun _ => .modify (fun _ => rfl) (fun _ => Nat.le_refl _) fun _ _ _ => rfl

theorem fwd_beginArray : Fwd (beginArray : R AbsSrc _) := by
  unfold beginArray
  exact (fwd_begin (v := .array) nofun).after' (fun _ => .modify fun _ => rfl) fun _ => .modify (fun _ => rfl) (fun _ => Nat.le_refl _) fun _ _ _ => rfl

theorem fwd_beginObject : Fwd (beginObject : R AbsSrc _) := by
  unfold beginObject
  exact (fwd_begin (v := .object) nofun).after' (fun _ => .modify fun _ => rfl) fun _ => .modify (fun _ => rfl) (fun _ => Nat.le_refl _) fun _ _ _ => rfl

/-- consuming the end of an array or object -/
theorem fwd_end {k : StructureKind} {f : Unit → R AbsSrc Unit} {q : Peeked} (hq : 0 < peekedLength q) (hk : ∀ a, Kp (f a)) (hl : ∀ a, Loc (f a) (f a)) :
    Fwd (do
      let p ← peekInternal
      if p != q then structureErr k
      else do
        consumePeeked
        f ()) := by
  intro s a s' h
  obtain ⟨p, s1, h1, h2⟩ := M.bind_eq_ok.1 h
  clear h
  have h3 : s.bytePos ≤ s1.bytePos := Tr.of_loc loc_peekInternal _ _ _ h1
  have h4 := peekInternal_ok h1
  split at h2
  · cases h2
  · rename_i hp
    have hp : p = q := by simpa using hp
    subst hp
    obtain ⟨_, s2, h5, h6⟩ := M.bind_eq_ok.1 h2
    obtain ⟨p', h7, h8, h9⟩ := consumePeeked_ok h5
    rw [h4] at h7
    cases h7
    refine ⟨(hk _ _ _ _ h6).trans h8, ?_⟩
    have : s2.bytePos ≤ s'.bytePos := Tr.of_loc (hl _) _ _ _ h6
    omega

theorem fwd_endArray : Fwd (endArray : R AbsSrc _) := by
  unfold endArray
  exact .get fun s => .ite .usage (fwd_end (f := fun _ => onContainerEnd) (Nat.succ_pos _) (fun _ => kp_onContainerEnd) fun _ => loc_end)

theorem fwd_endObject : Fwd (endObject : R AbsSrc _) := by
  unfold endObject
  refine .get fun s => .ite .usage (.ite .usage (fwd_end (f := fun _ => (do
      M.modify fun s => { s with expectsMemberName := false }
      onContainerEnd)) (Nat.succ_pos _) (fun _ => ?_) fun _ => ?_))
  · exact Tr.bind (Kp.modify fun _ => rfl) fun _ => kp_onContainerEnd
  · exact Loc.bind (Loc.modify (fun _ => rfl) (fun _ => Nat.le_refl _) fun _ _ _ => rfl) fun _ => loc_end

theorem fwd_nextBool : Fwd (nextBool : R AbsSrc _) := by
  have := kp_onValueEnd
  have := loc_onValueEnd
  unfold nextBool
  refine (fwd_start (v := .boolean) nofun).after' (fun p => ?_) (fun p => ?_)
  · kp
  · loc

theorem fwd_nextNull : Fwd (nextNull : R AbsSrc _) := by
  unfold nextNull
  exact (fwd_start (v := .null) nofun).after' (fun _ => kp_onValueEnd) fun _ => loc_onValueEnd

theorem fwd_nextString : Fwd (nextString : R AbsSrc _) := by
  have := kp_onValueEnd
  have := loc_onValueEnd
  have := @kp_readString
  have := @loc_readString
  unfold nextString
  refine (fwd_start (v := .string) nofun).after' (fun p => ?_) (fun p => ?_)
  · kp; exact kp_readString
  · loc; exact loc_readString

theorem fwd_nextStr : Fwd (nextStr : R AbsSrc _) := by
  have := kp_onValueEnd
  have := loc_onValueEnd
  unfold nextStr
  refine (fwd_start (v := .string) nofun).after' (fun p => ?_) (fun p => ?_)
  · kp; exact kp_readString
  · loc; exact loc_readString

theorem fwd_stringReader {lens : List Nat} : Fwd (runOp (.stringReader lens) : R AbsSrc _) := by
  unfold runOp nextStringReader
  refine Fwd.after' ((fwd_start (v := .string) nofun).after' (fun p => ?_) (fun p => ?_)) (fun sr => ?_) (fun sr => ?_)
  · kp
  · exact Loc.bind (Loc.modify (fun _ => rfl) (fun _ => Nat.le_refl _) fun _ _ _ => rfl) fun _ => .pure _
  · exact (kp_strReadsOk _ _).bind fun _ => .pure _
  · exact (loc_strReadsOk _ _).bind fun _ => .pure _

theorem advance_ok {a b : Nat} {s s' : St} {u : Unit} (h : (advance a b : R AbsSrc _).run s = .ok u s') : s'.bytePos = s.bytePos + b := by
  cases h
  rfl

/-- numbers: the start does not move the position, the bytes of the number do -/
theorem fwd_number {α : Type} {create consume : R AbsSrc Unit} {peek : R AbsSrc (Option UInt8)} {f : Nat × Nat → R AbsSrc α}
    (k1 : Kp create) (k2 : Kp consume) (k3 : Kp peek) (l1 : Loc create create) (l2 : Loc consume consume) (l3 : Loc peek peek)
    (hk : ∀ r, Kp (f r)) (hf : ∀ r s a s', 0 < r.2 → (f r).run s = .ok a s' → s.bytePos < s'.bytePos) :
    Fwd (do
      let _ ← startExpectedValueType .number false
      let r ← consumeNumber create consume peek
      f r) := by
  intro s a s' h
  obtain ⟨p, s1, h1, h2⟩ := M.bind_eq_ok.1 h
  clear h
  obtain ⟨h3, h4⟩ := start_le h1
  obtain ⟨r, s2, h5, h6⟩ := M.bind_eq_ok.1 h2
  have h7 : s1.bytePos ≤ s2.bytePos := Tr.of_loc (loc_consumeNumber l1 l2 l3) _ _ _ h5
  have h8 : s2.peeked = s1.peeked := kp_consumeNumber k1 k2 k3 _ _ _ h5
  have h9 := hf r _ _ _ (consumeNumber_pos h5) h6
  exact ⟨(hk _ _ _ _ h6).trans (h8.trans h3), by omega⟩

theorem finishNumber_lt {n : Nat} {s s' : St} {u : Unit} (hn : 0 < n) (h : (finishNumber n : R AbsSrc _).run s = .ok u s') : s.bytePos < s'.bytePos := by
  unfold finishNumber at h
  obtain ⟨_, s1, h1, h2⟩ := M.bind_eq_ok.1 h
  have h3 := advance_ok h1
  have h4 : s1.bytePos ≤ s'.bytePos := Tr.of_loc (Loc.bind loc_separator fun _ => loc_onValueEnd) _ _ _ h2
  omega

theorem fwd_skipNumber : Fwd (skipNumber : R AbsSrc _) := by
  unfold skipNumber
  exact fwd_number (f := fun r => finishNumber r.2) (.pure _) .skipPeekedByte .peekByte (.pure _) .skipPeekedByte .peekByte (fun _ => kp_finishNumber) fun r s a s' h h' => finishNumber_lt h h'

theorem fwd_readNumberBytes {b : Bool} : Fwd (readNumberBytes b : R AbsSrc _) := by
  unfold readNumberBytes
  refine fwd_number (f := fun r => (do
    let s ← M.get
    if s.settings.restrictNumberValues && (r.1 > 2 || r.2 > 100) then do
      liftS (ByteSource.vGet false)
      let number ← liftS ByteSource.getString
      let s ← M.get
      M.fail (.unsupportedNumberValue number (loc s))
    else do
      liftS (ByteSource.vGet b)
      finishNumber r.2)) .liftS .liftS .vPeek .vNew .vConsume .vPeek (fun _ => ?_) fun r s a s' h h' => ?_
  · kp; exact kp_finishNumber
  · rw [run_get] at h'
    split at h'
    · obtain ⟨_, s1, h1, h'⟩ := M.bind_eq_ok.1 h'
      obtain ⟨_, s2, h2, h'⟩ := M.bind_eq_ok.1 h'
      rw [run_get] at h'
      cases h'
    · obtain ⟨_, s1, h1, h2⟩ := M.bind_eq_ok.1 h'
      have h3 : s.bytePos ≤ s1.bytePos := Tr.of_loc Loc.vGet _ _ _ h1
      have h4 := finishNumber_lt h h2
      omega

theorem fwd_skipValueStart : Fwd (skipValueStart : R AbsSrc _) := by
  unfold skipValueStart
  refine .before (.of_loc loc_peek) fun v => ?_
  cases v with
  | array => exact fwd_beginArray.ok fun _ => 1
  | object => exact fwd_beginObject.ok fun _ => 1
  | string =>
    refine (fwd_start (v := .string) nofun).after' (fun p => ?_) (fun p => ?_)
    · have := kp_onValueEnd
      have := kp_skipAllStringBytes
      kp
    · have := loc_onValueEnd
      have := loc_skipAllStringBytes
      loc
  | number => exact fwd_skipNumber.ok fun _ => 0
  | boolean => exact fwd_nextBool.ok fun _ => 0
  | null => exact fwd_nextNull.ok fun _ => 0

theorem fwd_skipValueLoop (n : Nat) : ∀ d, Fwd (skipValueLoop n d : R AbsSrc _) := by
  induction n with
  | zero => intro d; exact .fail
  | succ n ih =>
    intro d
    unfold skipValueLoop
    refine .before (.of_loc loc_atContainerEnd) fun b => ?_
    have h : Fwd (if b = true then do
        endContainer
        pure (d - 1)
      else do
        skipNameIfExpected
        let d' ← skipValueStart
        pure (d + d') : R AbsSrc Nat) := by
      refine .ite (Fwd.ok (m := endContainer) ?_ fun _ => d - 1) (.before (.of_loc loc_skipNameIfExpected) fun _ => fwd_skipValueStart.ok fun d' => d + d')
      unfold endContainer
      exact .get fun s => .ite fwd_endArray fwd_endObject
    intro s a s' hr
    obtain ⟨d', s1, h1, h2⟩ := M.bind_eq_ok.1 hr
    obtain ⟨h3, h4⟩ := h _ _ _ h1
    split at h2
    · cases h2
      exact ⟨h3, h4⟩
    · obtain ⟨h5, h6⟩ := ih _ _ _ _ h2
      exact ⟨h5, by omega⟩

theorem fwd_skipValue : Fwd (skipValue : R AbsSrc _) := by
  unfold skipValue
  exact .get fun s => .ite .usage (fwd_skipValueLoop _ _)

/-- the calls which read a token: all except for `peek`, `has_next`, the getters and the composite calls which may have nothing to do -/
def reads : Op → Bool
  | .peek | .hasNext | .skipToTopLevel | .seekTo _ | .seekBack _ | .currentPosition _ | .consumeTrailingWhitespace => false
  | _ => true

theorem fwd_runOp {op : Op} (h : reads op = true) : Fwd (runOp op : R AbsSrc _) := by
  cases op with
  | peek | hasNext | skipToTopLevel | seekTo | seekBack | currentPosition | consumeTrailingWhitespace => cases h
  | beginArray => exact fwd_beginArray.ok fun _ => Out.unit
  | endArray => exact fwd_endArray.ok fun _ => Out.unit
  | beginObject => exact fwd_beginObject.ok fun _ => Out.unit
  | endObject => exact fwd_endObject.ok fun _ => Out.unit
  | nextName => exact fwd_names.1.ok fun t => Out.text t
  | nextNameOwned => exact fwd_names.2.1.ok fun t => Out.text t
  | nextString => exact fwd_nextString.ok fun t => Out.text t
  | nextStr => exact fwd_nextStr.ok fun t => Out.text t
  | stringReader lens => exact fwd_stringReader
  | nextNumberAsStr => exact Fwd.ok (fwd_readNumberBytes.after' (fun _ => .liftS) fun _ => .getStr) fun t => Out.text t
  | nextNumberAsString => exact Fwd.ok (fwd_readNumberBytes.after' (fun _ => .liftS) fun _ => .getString) fun t => Out.text t
  | nextBool => exact fwd_nextBool.ok fun b => Out.bool b
  | nextNull => exact fwd_nextNull.ok fun _ => Out.unit
  | skipName => exact fwd_names.2.2.ok fun _ => Out.unit
  | skipValue => exact fwd_skipValue.ok fun _ => Out.unit

end Verif.Abs
