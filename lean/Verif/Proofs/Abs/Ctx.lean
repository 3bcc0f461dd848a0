import Verif.Proofs.Abs.Tok
import Verif.Spec.Partial
/-!
# States of the reader as positions in a document

`Ctx` describes the already consumed part of a document: the open arrays and objects with their completely consumed elements. All fields of the
reader state are functions of the `Ctx`, except for the remaining input, the peeked token and (after whitespace was skipped) the position.
-/

namespace Verif.Abs
open Reader Utf8 Json

def Ctx.stack : Ctx → List StackValue
  | .top _ => []
  | .arr up _ _ => .array :: up.stack
  | .obj up _ _ => .object :: up.stack
  | .val up _ _ _ _ => .object :: up.stack

def Ctx.isEmpty : Ctx → Bool
  | .top done => done.isEmpty
  | .arr _ _ done => done.isEmpty
  | .obj _ _ done => done.isEmpty
  | .val _ _ done _ _ => done.isEmpty

def Ctx.emn : Ctx → Bool
  | .obj _ _ _ => true
  | _ => false

/-- A value can be added -/
def Ctx.Slot : Ctx → Lead → Prop
  | .top _, .ws _ => True
  | .arr _ _ _, .sep _ => True
  | .val _ _ _ _ _, .colon _ _ => True
  | _, _ => False

/-- the enclosing arrays and objects are in slots -/
def Ctx.Wf : Ctx → Prop
  | .top _ => True
  | .arr up l _ => up.Slot l ∧ up.Wf
  | .obj up l _ => up.Slot l ∧ up.Wf
  | .val up l _ _ _ => up.Slot l ∧ up.Wf

theorem Ctx.add_wf {c : Ctx} {l : Lead} {v : Cst} (h : c.Wf) : (c.add l v).Wf := by
  cases c <;> cases l <;> exact h

/-! ## Reader states -/

/-- state of a reader -/
def stp (st : Settings) (c : Ctx) (p : Pos) (pk : Option Peeked) (r : Bytes) : St :=
  { src := ⟨r, none, []⟩, peeked := pk, isEmpty := c.isEmpty, expectsMemberName := c.emn, stack := c.stack, stringReaderActive := false,
    line := p.line, column := p.col, bytePos := p.byte, path := if st.trackPath then some c.path else none, settings := st }

/-- position behind bytes, from the start of the document -/
def posOf (bs : Bytes) : Pos := (posRun (⟨0, 0, 0⟩, false) bs).1

/-- position behind bytes -/
def Pos.over (p : Pos) (bs : Bytes) : Pos := (posRun (p, false) bs).1

/-- the state with consumed bytes as described by the context -/
def mk (st : Settings) (c : Ctx) (r : Bytes) : St := stp st c (posOf c.bytes) none r

theorem mv_stp (st : Settings) (c : Ctx) (p : Pos) (pk : Option Peeked) (r bs r' : Bytes) :
    mv (stp st c p pk r) bs r' = stp st c (p.over bs) pk r' := rfl

theorem setRest_stp (st : Settings) (c : Ctx) (p : Pos) (pk : Option Peeked) (r r' : Bytes) :
    setRest (stp st c p pk r) r' = stp st c p pk r' := rfl

theorem new_eq (st : Settings) (bs : Bytes) : new (σ := AbsSrc) ⟨bs, none, []⟩ st = mk st (.top []) bs := by
  unfold new mk stp
  rfl

/-! ## Tokens -/

/-- bytes which are consumed when peeking at the token -/
def tokBytes : Peeked → Bytes
  | .null => nullBytes
  | .booleanTrue => trueBytes
  | .booleanFalse => falseBytes
  | .numberStart => []
  | .stringStart => [0x22]
  | .nameStart => [0x22]
  | .arrayStart => [0x5B]
  | .arrayEnd => [0x5D]
  | .objectStart => [0x7B]
  | .objectEnd => [0x7D]

def isNumStart (b : UInt8) : Prop := b = 0x2D ∨ (0x30 ≤ b.toNat ∧ b.toNat ≤ 0x39)

/-- condition on the bytes behind `tokBytes` -/
def Follow : Peeked → Bytes → Prop
  | .null, r => SepOk r
  | .booleanTrue, r => SepOk r
  | .booleanFalse, r => SepOk r
  | .numberStart, r => ∃ b t, r = b :: t ∧ isNumStart b
  | _, _ => True

/-- tokens which can be next -/
def Ctx.Allows : Ctx → Peeked → Prop
  | .top _, p => isValue p = true
  | .arr _ _ _, p => isValue p = true ∨ p = .arrayEnd
  | .obj _ _ _, p => p = .nameStart ∨ p = .objectEnd
  | .val _ _ _ _ _, p => isValue p = true

theorem Ctx.LeadFor.slot {st : Settings} {c : Ctx} {p : Peeked} {l : Lead} (h : c.LeadFor st p l) (hp : isValue p = true) : c.Slot l := by
  cases c <;> cases l <;> first | trivial | exact h.elim | skip
  rcases h with ⟨rfl, _⟩ | ⟨rfl, _⟩ <;> exact absurd hp (by decide)

theorem Ctx.LeadFor.allows {st : Settings} {c : Ctx} {p : Peeked} {l : Lead} (h : c.LeadFor st p l) : c.Allows p := by
  cases c <;> cases l <;> first | exact h.elim | skip
  · exact h.1
  · rcases h with ⟨rfl, _⟩ | ⟨h, _⟩
    · exact .inr rfl
    · exact .inl h
  · rcases h with ⟨rfl, _⟩ | ⟨rfl, _⟩
    · exact .inr rfl
    · exact .inl rfl
  · exact h.1

/-- the choice of value token does not matter -/
theorem Ctx.LeadFor.value {st : Settings} {c : Ctx} {p q : Peeked} {l : Lead} (h : c.LeadFor st p l) (hp : isValue p = true) (hq : isValue q = true) :
    c.LeadFor st q l := by
  cases c <;> cases l <;> first | exact h.elim | skip
  · exact ⟨hq, h.2⟩
  · rcases h with ⟨rfl, _⟩ | ⟨_, h⟩
    · exact absurd hp (by decide)
    · exact .inr ⟨hq, h⟩
  · rcases h with ⟨rfl, _⟩ | ⟨rfl, _⟩ <;> exact absurd hp (by decide)
  · exact ⟨hq, h.2⟩

/-! ## Classification of the next token -/

def isLit : Peeked → Bool
  | .null | .booleanTrue | .booleanFalse => true
  | _ => false

/-- `advance_reader` -/
def advOf (p : Peeked) : Bool := match p with
  | .null | .booleanTrue | .booleanFalse | .numberStart => false
  | _ => true

theorem tok_head {p : Peeked} {r : Bytes} (h : Follow p r) : ∃ b t, tokBytes p ++ r = b :: t ∧ TokStart b ∧ b ≠ 0x2C := by
  cases p
  case numberStart =>
    obtain ⟨b, t, rfl, hb⟩ := h
    refine ⟨b, t, rfl, ?_⟩
    revert hb
    unfold isNumStart
    refine forallByte (P := fun b => (b = 0x2D ∨ (0x30 ≤ b.toNat ∧ b.toNat ≤ 0x39)) → TokStart b ∧ b ≠ 0x2C) ?_ b
    unfold TokStart isSp
    decide +kernel
  all_goals exact ⟨_, _, rfl, by unfold TokStart isSp; decide, by decide⟩

theorem numStart_iff (b : UInt8) : (b == 0x2D || (decide (0x30 ≤ b) && decide (b ≤ 0x39))) = true ↔ isNumStart b := by
  unfold isNumStart
  simp only [Bool.or_eq_true, Bool.and_eq_true, decide_eq_true_eq, beq_iff_eq, UInt8.le_iff_toNat_le]
  rfl

theorem numStart_ne {b : UInt8} (h : isNumStart b) : b ≠ 0x5B ∧ b ≠ 0x5D ∧ b ≠ 0x7B ∧ b ≠ 0x7D ∧ b ≠ 0x22 := by
  refine ⟨?_, ?_, ?_, ?_, ?_⟩ <;> rintro rfl <;> revert h <;> unfold isNumStart <;> decide

theorem isInArray_stp (st : Settings) (c : Ctx) (p : Pos) (pk : Option Peeked) (r : Bytes) :
    isInArray (stp st c p pk r) = (match c with | .arr _ _ _ => true | _ => false) := by
  cases c <;> rfl

theorem isInObject_stp (st : Settings) (c : Ctx) (p : Pos) (pk : Option Peeked) (r : Bytes) :
    isInObject (stp st c p pk r) = (match c with | .obj _ _ _ => true | .val _ _ _ _ _ => true | _ => false) := by
  cases c <;> rfl

theorem beq_ne {a b : UInt8} (h : a ≠ b) : ¬ (a == b) = true := by simpa using h

/-- state after the token was classified -/
def clState (st : Settings) (c : Ctx) (pos : Pos) (p : Peeked) (r : Bytes) : St :=
  stp st c pos none (if advOf p then tokBytes p ++ r else r)

theorem classify_value {st : Settings} {c : Ctx} {pos : Pos} {p : Peeked} {b : UInt8} {t r : Bytes} (he : c.emn = false) (ha : isValue p = true)
    (hf : Follow p r) (hb : tokBytes p ++ r = b :: t) :
    (classify b).run (stp st c pos none (b :: t)) = .ok (p, advOf p) (clState st c pos p r) := by
  unfold classify
  rw [run_get]
  rw [if_neg (by show ¬ c.emn = true; rw [he]; decide)]
  unfold clState
  cases p <;> first | (exact absurd ha (by decide)) | skip
  case numberStart =>
    obtain ⟨b', t', rfl, hn⟩ := hf
    cases hb
    obtain ⟨h1, h2, h3, h4, h5⟩ := numStart_ne hn
    rw [if_neg (beq_ne h1), if_neg (beq_ne h2), if_neg (beq_ne h3), if_neg (beq_ne h4), if_neg (beq_ne h5), if_pos ((numStart_iff _).2 hn)]
    rfl
  case null => rw [← hb]; cases hb; exact M.bind_ok (consumeLiteral_complete rfl rfl hf)
  case booleanTrue => rw [← hb]; cases hb; exact M.bind_ok (consumeLiteral_complete rfl rfl hf)
  case booleanFalse => rw [← hb]; cases hb; exact M.bind_ok (consumeLiteral_complete rfl rfl hf)
  all_goals (cases hb; rfl)

theorem classify_complete {st : Settings} {c : Ctx} {pos : Pos} {p : Peeked} {b : UInt8} {t r : Bytes} (ha : c.Allows p) (hf : Follow p r)
    (hb : tokBytes p ++ r = b :: t) : (classify b).run (stp st c pos none (b :: t)) = .ok (p, advOf p) (clState st c pos p r) := by
  cases c with
  | obj up l done => rcases ha with rfl | rfl <;> (cases hb; rfl)
  | arr up l done =>
    rcases ha with ha | rfl
    · exact classify_value rfl ha hf hb
    · cases hb; rfl
  | top done => exact classify_value rfl ha hf hb
  | val up l done sp n => exact classify_value rfl ha hf hb

theorem classify_lo {st : Settings} {c : Ctx} {pos : Pos} {b : UInt8} {t : Bytes} :
    Lo (classify b) (stp st c pos none (b :: t)) (fun p s' => ∃ r, c.Allows p.1 ∧ Follow p.1 r ∧ tokBytes p.1 ++ r = b :: t ∧ p.2 = advOf p.1 ∧
      s' = clState st c pos p.1 r) := by
  have lit : ∀ {p : Peeked} {l : Bytes} {s : St}, c.Allows p → (∀ r, SepOk r → Follow p r) → tokBytes p = l → advOf p = false →
      s = stp st c pos none (b :: t) → Lo (do consumeLiteral l; pure (p, false)) s (fun p s' => ∃ r, c.Allows p.1 ∧ Follow p.1 r ∧ tokBytes p.1 ++ r = b :: t ∧ p.2 = advOf p.1 ∧
        s' = clState st c pos p.1 r) := by
    intro p l s h1 h2 h3 h4 hs
    subst hs
    refine Wp.bind' (consumeLiteral_lo rfl) ?_
    rintro _ _ ⟨r, h5, h6, rfl⟩
    refine Wp.pure ⟨r, h1, h2 r h6, ?_, h4.symm, ?_⟩
    · rw [h3]; exact h5.symm
    · unfold clState; dsimp only; rw [h4]; rfl
  unfold classify
  refine Wp.get ?_
  refine Wp.ite (fun he => ?_) fun he => ?_
  · cases c <;> first | exact Bool.noConfusion (he : false = true) | skip
    refine Wp.ite (fun h => ?_) fun _ => Wp.ite (fun h => ?_) fun _ => Lo.syntaxErr
    · have h := eq_of_beq h; subst h
      exact Wp.pure ⟨t, .inr rfl, trivial, rfl, rfl, rfl⟩
    · have h := eq_of_beq h; subst h
      exact Wp.pure ⟨t, .inl rfl, trivial, rfl, rfl, rfl⟩
  have hv : ∀ {p}, isValue p = true → c.Allows p := by
    intro p hp
    cases c with
    | top => exact hp
    | arr => exact .inl hp
    | obj => exact absurd rfl he
    | val => exact hp
  refine Wp.ite (fun h => ?_) fun _ => Wp.ite (fun h => ?_) fun _ => Wp.ite (fun h => ?_) fun _ => Wp.ite (fun h => Lo.syntaxErr) fun _ =>
    Wp.ite (fun h => ?_) fun _ => Wp.ite (fun h => ?_) fun _ => Wp.ite (fun h => ?_) fun _ => Wp.ite (fun h => ?_) fun _ =>
    Wp.ite (fun h => ?_) fun _ => Wp.ite (fun h => Lo.syntaxErr) fun _ => Wp.ite (fun h => Lo.syntaxErr) fun _ => Lo.syntaxErr
  · have h := eq_of_beq h; subst h
    exact Wp.pure ⟨t, hv rfl, trivial, rfl, rfl, rfl⟩
  · have h := eq_of_beq h; subst h
    refine Wp.ite (fun h => Lo.syntaxErr) fun h => ?_
    rw [isInArray_stp] at h
    cases c <;> first | exact absurd rfl h | skip
    exact Wp.pure ⟨t, .inr rfl, trivial, rfl, rfl, rfl⟩
  · have h := eq_of_beq h; subst h
    exact Wp.pure ⟨t, hv rfl, trivial, rfl, rfl, rfl⟩
  · have h := eq_of_beq h; subst h
    exact Wp.pure ⟨t, hv rfl, trivial, rfl, rfl, rfl⟩
  · exact Wp.pure ⟨b :: t, hv rfl, ⟨b, t, rfl, (numStart_iff b).1 h⟩, rfl, rfl, rfl⟩
  · exact lit (p := .null) (hv rfl) (fun _ h => h) rfl rfl rfl
  · exact lit (p := .booleanTrue) (hv rfl) (fun _ h => h) rfl rfl rfl
  · exact lit (p := .booleanFalse) (hv rfl) (fun _ h => h) rfl rfl rfl

end Verif.Abs
