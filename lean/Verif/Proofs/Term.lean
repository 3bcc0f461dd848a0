import Verif.Proofs.Run
/-!
# Readers on two lists of bytes

`AbsSrc.truncSim`: the first input is a beginning of the second one and then fails with an error. `AbsSrc.lenientSim`: the same input, but the
second reader has more lenient settings.
-/

namespace Verif.AbsSrc

/-- is the next byte known to be available? -/
def known : Phase → Bool
  | .idle k => k
  | .value k _ => k
  | .valueFinal => false
  | .held k _ => k

section
variable (k : Nat) (more : Bytes) (t : Option Nat)

inductive TRel (p : Phase) : AbsSrc → AbsSrc → Prop
  | mk (r acc : Bytes) (h : known p = true → r ≠ []) : TRel p ⟨r, some k, acc⟩ ⟨r ++ more, t, acc⟩

/-- errors of the reader on the truncated input for which the other reader may behave differently -/
def TX (e : RErr) : Prop := (∃ l, e = .io (.source k) l) ∨ (more ≠ [] ∧ e = .outOfFuel)

variable {k more t}

theorem TRel.weaken {p q : Phase} {c a : AbsSrc} (h : TRel k more t p c a) (hq : known q = true → known p = true) : TRel k more t q c a := by
  obtain ⟨r, acc, h⟩ := h
  exact ⟨r, acc, fun hk => h (hq hk)⟩

theorem peek_t {p q : Phase} : OpRel (TX k more) (fun _ => True) (TRel k more t p) peekByte peekByte (fun _ => TRel k more t q) := by
  rintro _ _ ⟨r, acc, h⟩
  cases r with
  | nil => exact RelAt.left rfl fun l => .inl ⟨l, rfl⟩
  | cons b r => exact ⟨rfl, b :: r, acc, nofun⟩

theorem skip_t {p q : Phase} (hp : known p = true) (hq : known q = false) : OpRel (TX k more) (fun _ => True) (TRel k more t p) skipPeekedByte skipPeekedByte (fun _ => TRel k more t q) := by
  rintro _ _ ⟨r, acc, h⟩
  cases r with
  | nil => exact absurd rfl (h hp)
  | cons b r => exact ⟨rfl, r, acc, by rw [hq]; nofun⟩

theorem consume_t {p q : Phase} (hp : known p = true) (hq : known q = false) : OpRel (TX k more) (fun _ => True) (TRel k more t p) vConsume vConsume (fun _ => TRel k more t q) := by
  rintro _ _ ⟨r, acc, h⟩
  cases r with
  | nil => exact absurd rfl (h hp)
  | cons b r => exact ⟨rfl, r, _, by rw [hq]; nofun⟩

theorem acc_t {p q : Phase} (f : Bytes → Bytes) (hq : known q = true → known p = true) :
    OpRel (TX k more) (fun _ => True) (TRel k more t p) (M.modify fun s => { s with acc := f s.acc }) (M.modify fun s => { s with acc := f s.acc }) (fun _ => TRel k more t q) := by
  rintro _ _ ⟨r, acc, h⟩
  exact ⟨rfl, r, _, fun hk => h (hq hk)⟩

theorem getStr_t {p q : Phase} (hq : known q = true → known p = true) :
    OpRel (TX k more) (fun _ => True) (TRel k more t p) getStr getStr (fun _ => TRel k more t q) := by
  rintro _ _ ⟨r, acc, h⟩
  unfold RelAt getStr
  dsimp only
  cases Utf8.toStrUnchecked acc with
  | none => exact .inr ⟨rfl, fun _ _ => trivial⟩
  | some x => exact ⟨rfl, r, _, fun hk => h (hq hk)⟩

theorem getStrPeek_t {p q : Phase} (hq : known q = true → known p = true) :
    OpRel (TX k more) (fun _ => True) (TRel k more t p) getStrPeek getStrPeek (fun _ => TRel k more t q) := by
  rintro _ _ ⟨r, acc, h⟩
  unfold RelAt getStrPeek
  dsimp only
  cases Utf8.toStrUnchecked acc with
  | none => exact .inr ⟨rfl, fun _ _ => trivial⟩
  | some x => exact ⟨rfl, r, _, fun hk => h (hq hk)⟩

variable (k more t)

/-- the first reader gets only a part of the input and then an error -/
def truncSim (settings : Settings) : Sim AbsSrc AbsSrc where
  rel := TRel k more t
  X := TX k more
  fin _ _ := True
  finOf _ _ _ _ _ := trivial
  finHeld _ _ _ _ _ := trivial
  finMono _ _ := trivial
  set1 := settings
  set2 := settings
  weakenIdle _ _ h := h.weaken nofun
  weakenValue _ _ _ h := h.weaken nofun
  weakenHeld _ _ _ h := h.weaken nofun
  peekByte := peek_t
  peekByteHeld _ := peek_t
  skipPeekedByte := skip_t rfl rfl
  vNew _ := acc_t (fun _ => []) id
  vPeek := peek_t
  vConsume := consume_t rfl rfl
  vSkipPrevious := acc_t List.dropLast nofun
  vSkipFinal := acc_t List.dropLast nofun
  vPush bs := acc_t (· ++ bs) nofun
  vGetFinal _ := acc_t id nofun
  vGet _ := acc_t id id
  getString _ := getStr_t nofun
  getStr := getStr_t nofun
  getStrPeek := getStrPeek_t nofun
  remaining := by
    rintro p _ _ ⟨r, acc, h⟩
    by_cases hm : more = []
    · subst hm; exact .inl (by show r.length = (r ++ []).length; rw [List.append_nil])
    · exact .inr ⟨by show r.length ≤ (r ++ more).length; rw [List.length_append]; omega, .inr ⟨hm, rfl⟩⟩
  comments h := h
  commentsX h h' := by rw [h] at h'; cases h'
  trailingComma h := h
  trailingCommaX h h' := by rw [h] at h'; cases h'
  multi h := h
  multiX h h' := by rw [h] at h'; cases h'
  depth m h := ⟨m, h, Nat.le_refl _⟩
  depthX m h := .inl h
  restrict h := h
  restrictX h h' := by rw [h] at h'; cases h'

end

/-- errors which may not occur with more lenient settings -/
def LX : RErr → Prop
  | .syntax .commentsNotEnabled _ => True
  | .syntax .trailingCommaNotEnabled _ => True
  | .syntax .incompleteDocument _ => True
  | .panic _ => True
  | .maxNestingDepthExceeded _ _ => True
  | .unsupportedNumberValue _ _ => True
  | _ => False

/-- the second settings are at least as lenient -/
structure Lenient (a b : Settings) : Prop where
  comments : a.allowComments = true → b.allowComments = true
  trailingComma : a.allowTrailingComma = true → b.allowTrailingComma = true
  multi : a.allowMultipleTopLevel = true → b.allowMultipleTopLevel = true
  depth : ∀ m, b.maxNestingDepth = some m → ∃ n, a.maxNestingDepth = some n ∧ n ≤ m
  restrict : b.restrictNumberValues = true → a.restrictNumberValues = true

theorem refl_t {α : Type} (m : M SrcErr AbsSrc α) : OpRel LX (fun _ => True) Eq m m (fun _ => Eq) := by
  rintro c _ rfl
  unfold RelAt
  cases m.run c with
  | ok => exact ⟨rfl, rfl⟩
  | err => exact .inr ⟨rfl, fun _ _ => trivial⟩

def lenientSim {a b : Settings} (h : Lenient a b) : Sim AbsSrc AbsSrc where
  rel _ := Eq
  X := LX
  fin _ _ := True
  finOf _ _ _ _ _ := trivial
  finHeld _ _ _ _ _ := trivial
  finMono _ _ := trivial
  set1 := a
  set2 := b
  weakenIdle _ _ h := h
  weakenValue _ _ _ h := h
  weakenHeld _ _ _ h := h
  peekByte := refl_t _
  peekByteHeld _ := refl_t _
  skipPeekedByte := refl_t _
  vNew _ := refl_t _
  vPeek := refl_t _
  vConsume := refl_t _
  vSkipPrevious := refl_t _
  vSkipFinal := refl_t _
  vPush bs := refl_t _
  vGetFinal _ := refl_t _
  vGet _ := refl_t _
  getString _ := refl_t _
  getStr := refl_t _
  getStrPeek := refl_t _
  remaining := by rintro _ _ _ rfl; exact .inl rfl
  comments := h.comments
  commentsX _ _ _ := trivial
  trailingComma := h.trailingComma
  trailingCommaX _ _ _ := trivial
  multi := h.multi
  multiX _ _ := ⟨fun _ => trivial, fun _ => trivial⟩
  depth := h.depth
  depthX _ _ := .inr fun _ _ => trivial
  restrict := h.restrict
  restrictX _ _ := by
    refine ⟨fun _ _ => trivial, fun _ => trivial, ?_, ?_⟩
    · intro c c' e he; cases he
    · intro c c' e he
      change getStr.run c = _ at he
      unfold getStr at he
      dsimp only at he
      cases hu : Utf8.toStrUnchecked c.acc with
      | none => rw [hu] at he; cases he; exact ⟨_, rfl⟩
      | some x => rw [hu] at he; cases he

end Verif.AbsSrc

namespace Verif.Reader
open Sim

/-- truncated and full input: the same results up to the error -/
theorem runAbs_trunc (settings : Settings) (bytes more : Bytes) (k : Nat) (t : Option Nat) (ops : List Op) :
    Same (AbsSrc.TX k more) (runAbs settings bytes (some k) ops) (runAbs settings (bytes ++ more) t ops) :=
  runOps_same (S := AbsSrc.truncSim k more t settings) ops (RRel.mk (S := AbsSrc.truncSim k more t settings) ⟨bytes, [], fun h => Bool.noConfusion h⟩ ..)

theorem runAbs_lenient {a b : Settings} (h : AbsSrc.Lenient a b) (hp : a.trackPath = b.trackPath) (bytes : Bytes) (t : Option Nat) (ops : List Op) :
    Same AbsSrc.LX (runAbs a bytes t ops) (runAbs b bytes t ops) := by
  refine runOps_same (S := AbsSrc.lenientSim h) ops ?_
  have := RRel.mk (S := AbsSrc.lenientSim h) (p := .idle false) (c := ⟨bytes, t, []⟩) (a := ⟨bytes, t, []⟩) rfl none true false [] false 0 0 0 (if b.trackPath then some [] else none)
  unfold new
  rw [hp]
  exact this

end Verif.Reader
