import Verif.Proofs.Abs.Keeps
import Verif.Proofs.Prog
/-! # Calls which fail but only peek -/

namespace Verif.JsonNumber
variable {ε σ : Type} {P : ε → Prop}

/-- all errors satisfy `P` -/
def Only {α : Type} (P : ε → Prop) (m : M ε σ α) : Prop := ∀ s e s', m.run s = .err e s' → P e

theorem Only.bind {α β : Type} {m : M ε σ α} {f : α → M ε σ β} (h : Only P m) (hf : ∀ a, Only P (f a)) : Only P (m >>= f) := by
  intro s e s' hr
  rw [M.run_bind] at hr
  cases hm : m.run s with
  | ok a s1 => rw [hm] at hr; exact hf a _ _ _ hr
  | err e1 s1 => rw [hm] at hr; cases hr; exact h _ _ _ hm
theorem Only.pure {α : Type} (a : α) : Only P (pure a : M ε σ α) := fun _ _ _ h => by cases h
theorem Only.ite {α : Type} {c : Prop} [Decidable c] {m1 m2 : M ε σ α} (h1 : Only P m1) (h2 : Only P m2) : Only P (if c then m1 else m2) := by
  split
  · exact h1
  · exact h2

variable {next : M ε σ (Option UInt8)} {oof : ε} (hn : Only P next) (ho : P oof)
include hn ho

macro "only" : tactic => `(tactic| repeat (any_goals (first | assumption | (with_reducible exact Only.pure _) | (with_reducible refine Only.bind ?_ fun _ => ?_) | (with_reducible refine Only.ite ?_ ?_) | split)))

theorem only_digits : ∀ n, Only P (consumeDigits next oof n)
  | 0 => fun _ _ _ h => by cases h; exact ho
  | n + 1 => by
    have := only_digits n
    unfold consumeDigits; only

theorem only_expDigits : ∀ n c, Only P (consumeExpDigits next oof n c)
  | 0, _ => fun _ _ _ h => by cases h; exact ho
  | n + 1, c => by
    have h := only_expDigits n
    unfold consumeExpDigits; only <;> exact h _

theorem only_number {n : Nat} {b : UInt8} : Only P (consumeJsonNumber next oof n b) := by
  have h1 := only_digits hn ho n
  have h2 := only_expDigits hn ho n
  have h3 : ∀ c b, Only P (finish c b : M ε σ _) := by intro c b; unfold finish; only
  have h4 : ∀ b, Only P (exponentDigits next oof n b) := by
    intro b; unfold exponentDigits; only <;> first | exact h2 _ _ | exact h2 _ | exact h3 _ _
  have h5 : ∀ b, Only P (exponentPart next oof n b) := by
    intro b; unfold exponentPart; only <;> first | exact h4 _ | exact h3 _ _
  have h6 : ∀ b, Only P (fractionPart next oof n b) := by
    intro b; unfold fractionPart; only <;> exact h5 _
  have h7 : ∀ b, Only P (integerPart next oof n b) := by
    intro b; unfold integerPart; only <;> exact h6 _
  unfold consumeJsonNumber; only <;> exact h7 _

end Verif.JsonNumber

namespace Verif.Reader
variable {σ : Type} [ByteSource σ]

theorem fatal_consumeNumber {cr c : R σ Unit} {p : R σ (Option UInt8)} (h1 : Fatal cr) (h2 : Fatal c) (h3 : Fatal p) : Fatal (consumeNumber cr c p) := by
  have h4 := fatal_peekByte (σ := σ)
  have h : ∀ b, Fatal (⟨fun s =>
    match (JsonNumber.consumeJsonNumber (numberNext c p) .outOfFuel (fuel s) b).run (s, 0) with
    | .ok r (s', n) => .ok (r, n) s'
    | .err e (s', _) => .err e s'⟩ : R σ (Option Nat × Nat)) := by
    intro b s e s' hr
    have hn : JsonNumber.Only (fun e => RErr.fatal e = true) (numberNext c p) := by
      intro t e t' ht
      unfold numberNext at ht
      dsimp only at ht
      have hb : Fatal (do c; p) := .bind h2 fun _ => h3
      cases hm : (do c; p : R σ (Option UInt8)).run t.1 with
      | ok a u => rw [hm] at ht; cases ht
      | err e u => rw [hm] at ht; cases ht; exact hb _ _ _ hm
    have := JsonNumber.only_number (oof := RErr.outOfFuel) hn rfl (n := fuel s) (b := b)
    dsimp only at hr
    cases hm : (JsonNumber.consumeJsonNumber (numberNext c p) .outOfFuel (fuel s) b).run (s, 0) with
    | ok r t => rw [hm] at hr; cases hr
    | err e t => rw [hm] at hr; cases hr; exact this _ _ _ hm
  unfold consumeNumber
  fatal
  exact h _

theorem fatal_finishNumber {n : Nat} : Fatal (finishNumber n : R σ _) := by
  have := fatal_onValueEnd (σ := σ)
  have := @fatal_sep σ _ .trailingDataAfterNumber
  unfold finishNumber; fatal

theorem fatal_strConsume {len : Nat} : ∀ {bs : Bytes} {sr : StrReader} {out : Bytes}, Fatal (strConsume len bs sr out : R σ _)
  | [], _, _ => Fatal.pure _
  | b :: bs, sr, out => by
    have h := fun sr out => @fatal_strConsume len bs sr out
    unfold strConsume; fatal <;> exact h _ _

theorem fatal_strReadLoop {len : Nat} : ∀ {n : Nat} {sr : StrReader} {out : Bytes}, Fatal (strReadLoop len n sr out : R σ _)
  | 0, _, _ => Fatal.ite Fatal.fuel (Fatal.pure _)
  | n + 1, sr, out => by
    have h := fun sr out => @fatal_strReadLoop len n sr out
    have h1 := fatal_strBytes (σ := σ)
    have h2 := fun bs sr out => @fatal_strConsume σ _ len bs sr out
    have h3 := fatal_onValueEnd (σ := σ)
    unfold strReadLoop; fatal <;> first | exact h _ _ | exact h2 _ _ _

theorem fatal_strReadImpl {len : Nat} {sr : StrReader} : Fatal (strReadImpl len sr : R σ _) := by
  have h : Fatal (strDrain len sr : R σ _) := by unfold strDrain; fatal
  unfold strReadImpl; fatal
  exact fatal_strReadLoop

theorem fatal_strReadsOk : ∀ {lens : List Nat} {sr : StrReader}, Fatal (strReadsOk lens sr : R σ _)
  | [], _ => Fatal.pure _
  | len :: lens, sr => by
    have h := fun sr => @fatal_strReadsOk lens sr
    have h2 := @fatal_strReadImpl σ _ len sr
    unfold strReadsOk; fatal; exact h _

end Verif.Reader

namespace Verif.Abs
open Reader

def Num (e : RErr) : Prop := ∃ t l, e = .unsupportedNumberValue t l

/-- an error which is neither fatal nor about an unsupported number occurs only after peeking -/
def Mis {α : Type} (m : R AbsSrc α) : Prop := ∀ s e s', m.run s = .err e s' → e.fatal = true ∨ Num e ∨ ∃ o, Pk o s s'

/-- the same for success -/
def Looked {α : Type} (m : R AbsSrc α) : Prop := ∀ s a s', m.run s = .ok a s' → ∃ o, Pk o s s'

theorem Mis.bindN {α β : Type} {m : R AbsSrc α} {f : α → R AbsSrc β} (h : Mis m) (hf : ∀ a s e s', (f a).run s = .err e s' → e.fatal = true ∨ Num e) : Mis (m >>= f) := by
  intro s e s' hr
  rw [M.run_bind] at hr
  cases hm : m.run s with
  | ok a s1 => rw [hm] at hr; exact (hf a _ _ _ hr).imp_right .inl
  | err e1 s1 => rw [hm] at hr; cases hr; exact h _ _ _ hm

theorem Mis.bind {α β : Type} {m : R AbsSrc α} {f : α → R AbsSrc β} (h : Mis m) (hf : ∀ a, Fatal (f a)) : Mis (m >>= f) := h.bindN fun a s e s' hr => .inl (hf a s e s' hr)

theorem Mis.get {α : Type} {f : St → R AbsSrc α} (h : ∀ s e s', (f s).run s = .err e s' → e.fatal = true ∨ Num e ∨ ∃ o, Pk o s s') : Mis (M.get >>= f) := by
  intro s e s' hr
  rw [run_get] at hr
  exact h s e s' hr

theorem pi_cases {s : St} : (∀ {p s'}, peekInternal.run s = .ok p s' → Pk (some p) s s') ∧ ∀ {e s'}, peekInternal.run s = .err e s' → e.fatal = true ∨ ∃ o, Pk o s s' := by
  unfold peekInternal
  rw [M.run_bind]
  cases hm : (peekInternalOptional : R AbsSrc _).run s with
  | err e s1 => exact ⟨nofun, fun h => by cases h; exact .inl (fatal_pio _ _ _ hm)⟩
  | ok o s1 =>
    cases o with
    | some p => exact ⟨fun h => by cases h; exact pk_of hm (.inl nofun), nofun⟩
    | none =>
      dsimp only
      rw [run_get]
      split
      · rename_i hb
        refine ⟨nofun, fun h => ?_⟩
        cases h
        refine .inr ⟨none, pk_of hm (.inr ?_)⟩
        unfold isBehindTopLevel at hb
        simp only [Bool.and_eq_true] at hb
        exact List.isEmpty_iff.1 hb.1.2
      · exact ⟨nofun, fun h => by cases h; exact .inl rfl⟩

theorem mapPeeked_ok {p : Peeked} {s s' : St} {t : ValueType} (h : (mapPeeked p).run s = .ok t s') : s' = s := by cases p <;> cases h <;> rfl
theorem mapPeeked_err {p : Peeked} {s s' : St} {e : RErr} (h : (mapPeeked p).run s = .err e s') : s' = s := by cases p <;> cases h <;> rfl

theorem peek_cases {s : St} : (∀ {t s'}, peek.run s = .ok t s' → ∃ o, Pk o s s') ∧ ∀ {e s'}, peek.run s = .err e s' → e.fatal = true ∨ ∃ o, Pk o s s' := by
  unfold peek
  rw [run_get]
  split
  · exact ⟨nofun, fun h => by cases h; exact .inl rfl⟩
  · rw [M.run_bind]
    obtain ⟨h1, h2⟩ := @pi_cases s
    cases hm : (peekInternal : R AbsSrc _).run s with
    | err e s1 => exact ⟨nofun, fun h => by cases h; exact h2 hm⟩
    | ok p s1 => exact ⟨fun h => mapPeeked_ok h ▸ ⟨_, h1 hm⟩, fun h => mapPeeked_err h ▸ .inr ⟨_, h1 hm⟩⟩

theorem mis_peek : Mis peek := fun _ _ _ h => (peek_cases.2 h).imp_right .inr
theorem looked_peek : Looked peek := fun _ _ _ h => peek_cases.1 h

theorem mis_sev {t : ValueType} {chk : Bool} : Mis (startExpectedValueType t chk) := by
  refine Mis.get fun s e s' h => ?_
  split at h
  · cases h; exact .inl rfl
  rw [M.run_bind] at h
  obtain ⟨h1, h2⟩ := @pi_cases s
  cases hm : (peekInternal : R AbsSrc _).run s with
  | err e s1 => rw [hm] at h; cases h; exact (h2 hm).imp_right .inr
  | ok p s1 =>
    rw [hm] at h
    dsimp only at h
    rw [M.run_bind] at h
    cases hm2 : (mapPeeked p : R AbsSrc _).run s1 with
    | err e s2 => rw [hm2] at h; cases h; exact mapPeeked_err hm2 ▸ .inr (.inr ⟨_, h1 hm⟩)
    | ok v s2 =>
      rw [hm2] at h
      dsimp only at h
      obtain rfl := mapPeeked_ok hm2
      rw [run_get] at h
      split at h
      · revert h
        generalize (if chk = true then depthExceeded s2 else none) = d
        intro h
        cases d with
        | some n => cases h; exact .inr (.inr ⟨_, h1 hm⟩)
        | none =>
          dsimp only at h
          have hf : Fatal (do consumePeeked; pure p : R AbsSrc Peeked) := .bind fatal_consumePeeked fun _ => .pure _
          exact .inl (hf _ _ _ h)
      · cases h; exact .inr (.inr ⟨_, h1 hm⟩)

theorem hasNext_cases {s : St} : (∀ {t s'}, hasNext.run s = .ok t s' → ∃ o, Pk o s s') ∧ ∀ {e s'}, hasNext.run s = .err e s' → e.fatal = true ∨ ∃ o, Pk o s s' := by
  have tail : ∀ {o : Option Peeked} {s1 : St}, Pk o s s1 →
      (∀ {t s'}, (match o with | none => pure false | some p => do let s ← M.get; if !(!s.expectsMemberName || p == .nameStart || p == .objectEnd) then internalPanic .debugAssert else pure (p != .arrayEnd && p != .objectEnd) : R AbsSrc Bool).run s1 = .ok t s' → ∃ o, Pk o s s') ∧
      ∀ {e s'}, (match o with | none => pure false | some p => do let s ← M.get; if !(!s.expectsMemberName || p == .nameStart || p == .objectEnd) then internalPanic .debugAssert else pure (p != .arrayEnd && p != .objectEnd) : R AbsSrc Bool).run s1 = .err e s' → e.fatal = true ∨ ∃ o, Pk o s s' := by
    intro o s1 hp
    cases o with
    | none => exact ⟨fun h => by cases h; exact ⟨_, hp⟩, nofun⟩
    | some p =>
      dsimp only
      rw [run_get]
      split
      · exact ⟨nofun, fun h => by cases h; exact .inl rfl⟩
      · exact ⟨fun h => by cases h; exact ⟨_, hp⟩, nofun⟩
  unfold hasNext
  rw [run_get]
  split
  · exact ⟨nofun, fun h => by cases h; exact .inl rfl⟩
  by_cases hs : s.stack.isEmpty = true
  · rw [if_pos hs]
    by_cases h1 : s.isEmpty = true
    · rw [if_pos h1]
      exact ⟨nofun, fun h => by cases h; exact .inl rfl⟩
    rw [if_neg h1]
    by_cases h2 : (!s.settings.allowMultipleTopLevel) = true
    · rw [if_pos h2]
      exact ⟨nofun, fun h => by cases h; exact .inl rfl⟩
    rw [if_neg h2, M.run_bind]
    cases hm : (peekInternalOptional : R AbsSrc _).run s with
    | err e s1 => exact ⟨nofun, fun h => by cases h; exact .inl (fatal_pio _ _ _ hm)⟩
    | ok o s1 =>
      have hst : s1.stack = [] := by
        have h0 := List.isEmpty_iff.1 hs
        rcases pio_ok hm with hk | ⟨rfl, _⟩
        · rw [hk.stack, h0]
        · exact h0
      exact tail (pk_of hm (.inr hst))
  · rw [if_neg hs, M.run_bind, M.run_bind]
    obtain ⟨h1, h2⟩ := @pi_cases s
    cases hm : (peekInternal : R AbsSrc _).run s with
    | err e s1 => exact ⟨nofun, fun h => by cases h; exact h2 hm⟩
    | ok p s1 => exact tail (h1 hm)

theorem mis_hasNext : Mis hasNext := fun _ _ _ h => (hasNext_cases.2 h).imp_right .inr

theorem mis_beforeName : Mis beforeName := by
  refine Mis.get fun s e s' h => ?_
  split at h
  · cases h; exact .inl rfl
  split at h
  · cases h; exact .inl rfl
  rw [M.run_bind] at h
  obtain ⟨h1, h2⟩ := @hasNext_cases s
  cases hm : (hasNext : R AbsSrc _).run s with
  | err e s1 => rw [hm] at h; cases h; exact (h2 hm).imp_right .inr
  | ok b s1 =>
    rw [hm] at h
    cases b with
    | true =>
      have hf : Fatal (do M.modify (fun s => { s with expectsMemberName := false }); consumePeeked : R AbsSrc Unit) := .bind (.modify _) fun _ => fatal_consumePeeked
      exact .inl (hf _ _ _ h)
    | false => cases h; exact .inr (.inr (h1 hm))

theorem mis_end {p0 : Peeked} {k : StructureKind} {f : R AbsSrc Unit} (hf : Fatal f) : Mis (do let p ← peekInternal; if p != p0 then structureErr k else f) := by
  intro s e s' h
  rw [M.run_bind] at h
  obtain ⟨h1, h2⟩ := @pi_cases s
  cases hm : (peekInternal : R AbsSrc _).run s with
  | err e s1 => rw [hm] at h; cases h; exact (h2 hm).imp_right .inr
  | ok p s1 =>
    rw [hm] at h
    dsimp only at h
    split at h
    · cases h; exact .inr (.inr ⟨_, h1 hm⟩)
    · exact .inl (hf _ _ _ h)

theorem mis_endArray : Mis endArray := by
  refine Mis.get fun s e s' h => ?_
  split at h
  · cases h; exact .inl rfl
  · exact mis_end (.bind fatal_consumePeeked fun _ => fatal_onContainerEnd) _ _ _ h

theorem mis_endObject : Mis endObject := by
  refine Mis.get fun s e s' h => ?_
  split at h
  · cases h; exact .inl rfl
  split at h
  · cases h; exact .inl rfl
  · exact mis_end (.bind fatal_consumePeeked fun _ => .bind (.modify _) fun _ => fatal_onContainerEnd) _ _ _ h

theorem mis_number {b : Bool} : Mis (readNumberBytes b) := by
  refine mis_sev.bindN fun _ s e s' h => ?_
  rw [M.run_bind] at h
  have hc : Fatal (consumeNumber (liftS ByteSource.vNew) (liftS ByteSource.vConsume) vPeek : R AbsSrc _) := fatal_consumeNumber (.lift _) (.lift _) fatal_vPeek
  cases hm : (consumeNumber (liftS ByteSource.vNew) (liftS ByteSource.vConsume) vPeek : R AbsSrc _).run s with
  | err e s1 => rw [hm] at h; cases h; exact .inl (hc _ _ _ hm)
  | ok a s1 =>
    rw [hm] at h
    dsimp only at h
    rw [run_get] at h
    split at h
    · rw [M.run_bind] at h
      cases h1 : (liftS (ByteSource.vGet false) : R AbsSrc _).run s1 with
      | err e s2 => rw [h1] at h; cases h; exact .inl (Fatal.lift _ _ _ _ h1)
      | ok a s2 =>
        rw [h1] at h
        dsimp only at h
        rw [M.run_bind] at h
        cases h2 : (liftS ByteSource.getString : R AbsSrc _).run s2 with
        | err e s3 => rw [h2] at h; cases h; exact .inl (Fatal.lift _ _ _ _ h2)
        | ok a s3 => rw [h2] at h; cases h; exact .inr ⟨_, _, rfl⟩
    · have hf : Fatal (do liftS (ByteSource.vGet b); finishNumber a.2 : R AbsSrc Unit) := .bind (.lift _) fun _ => fatal_finishNumber
      exact .inl (hf _ _ _ h)

end Verif.Abs

namespace Verif.Abs
open Reader

/-- Calls for a single token -/
def single : Op → Bool
  | .skipValue | .seekTo _ => false
  | op => token op

section
variable {α : Type}
theorem mis_start {t : ValueType} {v : StackValue} : Mis (onContainerStart t v) := by
  unfold onContainerStart
  refine mis_sev.bind fun _ => ?_
  fatal

theorem mis_beginArray : Mis beginArray := by
  unfold beginArray; exact mis_start.bind fun _ => .modify _
theorem mis_beginObject : Mis beginObject := by
  unfold beginObject; exact mis_start.bind fun _ => .modify _

theorem mis_nextName : Mis nextName := by
  have h1 := fun b => @fatal_readString AbsSrc _ b
  have h2 := fatal_afterName (σ := AbsSrc)
  have h3 := fun t => @fatal_setPathName AbsSrc t
  unfold nextName
  refine mis_beforeName.bind fun _ => ?_
  fatal <;> first | exact h1 _ | exact h3 _

theorem mis_nextNameOwned : Mis nextNameOwned := by
  have h1 := fun b => @fatal_readString AbsSrc _ b
  have h2 := fatal_afterName (σ := AbsSrc)
  have h3 := fun t => @fatal_setPathName AbsSrc t
  unfold nextNameOwned
  refine mis_beforeName.bind fun _ => ?_
  fatal <;> first | exact h1 _ | exact h3 _

theorem mis_nextString : Mis nextString := by
  have h1 := fun b => @fatal_readString AbsSrc _ b
  have h2 := fatal_onValueEnd (σ := AbsSrc)
  unfold nextString
  refine mis_sev.bind fun _ => ?_
  fatal <;> exact h1 _

theorem mis_nextStr : Mis nextStr := by
  have h1 := fun b => @fatal_readString AbsSrc _ b
  have h2 := fatal_onValueEnd (σ := AbsSrc)
  unfold nextStr
  refine mis_sev.bind fun _ => ?_
  fatal <;> exact h1 _

theorem mis_nextStringReader : Mis nextStringReader := by
  unfold nextStringReader
  refine mis_sev.bind fun _ => ?_
  fatal

theorem mis_nextBool : Mis nextBool := by
  have h2 := fatal_onValueEnd (σ := AbsSrc)
  unfold nextBool
  refine mis_sev.bind fun _ => ?_
  fatal

theorem mis_nextNull : Mis nextNull := by
  have h2 := fatal_onValueEnd (σ := AbsSrc)
  unfold nextNull
  exact mis_sev.bind fun _ => h2

theorem mis_skipName : Mis skipName := by
  have h1 := fatal_skipStr (σ := AbsSrc)
  have h2 := fatal_afterName (σ := AbsSrc)
  have h3 := fun t => @fatal_setPathName AbsSrc t
  unfold skipName
  refine mis_beforeName.bind fun _ => ?_
  have h4 := fun b => @fatal_readString AbsSrc _ b
  fatal <;> first | exact h3 _ | exact h4 _
end

theorem mis_op {op : Op} (hs : single op = true) : Mis (runOp op) := by
  cases op with
  | peek => exact mis_peek.bind fun _ => .pure _
  | beginArray => exact mis_beginArray.bind fun _ => .pure _
  | endArray => exact mis_endArray.bind fun _ => .pure _
  | beginObject => exact mis_beginObject.bind fun _ => .pure _
  | endObject => exact mis_endObject.bind fun _ => .pure _
  | nextName => exact mis_nextName.bind fun _ => .pure _
  | nextNameOwned => exact mis_nextNameOwned.bind fun _ => .pure _
  | nextString => exact mis_nextString.bind fun _ => .pure _
  | nextStr => exact mis_nextStr.bind fun _ => .pure _
  | stringReader lens => exact mis_nextStringReader.bind fun _ => .bind fatal_strReadsOk fun _ => .pure _
  | nextNumberAsStr => exact Mis.bind (mis_number.bind fun _ => .lift _) fun _ => .pure _
  | nextNumberAsString => exact Mis.bind (mis_number.bind fun _ => .lift _) fun _ => .pure _
  | nextBool => exact mis_nextBool.bind fun _ => .pure _
  | nextNull => exact mis_nextNull.bind fun _ => .pure _
  | hasNext => exact mis_hasNext.bind fun _ => .pure _
  | skipName => exact mis_skipName.bind fun _ => .pure _
  | skipValue | seekTo | skipToTopLevel | seekBack | currentPosition | consumeTrailingWhitespace => cases hs

end Verif.Abs
