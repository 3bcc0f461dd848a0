import Verif.Proofs.Obey
import Verif.Proofs.Abs.Progress
import Verif.Proofs.SimpleReader.Multi
import Verif.Spec.Orderly
/-! # The Simple reader API follows the usage rules of the reader -/

namespace Verif.SimpleReader.Arb
open Reader Usage Obey SimpleReaderSpec

/-- What is known about the reader. `mode`: while a string value reader is used, the mode before the string. `str`: a string value reader has been created; it has been read
to the end. `atEnd`: `has_next` returned `false`. `left`: number of remaining bytes. `gone`: the reader has been consumed. -/
structure Know where
  mode : Mode
  str : Option Bool
  atEnd : Bool
  left : Nat
  gone : Bool

/-- methods of the reader may be called -/
def Know.Free (k : Know) : Prop := k.str ≠ some false ∧ k.gone = false

/-- methods which read at least one byte -/
def advances : Op → Bool
  | .seekTo p => !p.isEmpty
  | .seekBack p => !p.isEmpty
  | op => Abs.reads op

/-- after a method -/
structure Step (k : Know) (op : Op) (o : Out) (k' : Know) : Prop where
  mode : k'.mode = k.mode.next o op
  str : k'.str ≠ some false
  gone : op ≠ .consumeTrailingWhitespace → k'.gone = false
  left : k'.left ≤ k.left
  less : advances op = true → k'.left < k.left
  was : k.atEnd = true → op ≠ .peek ∧ op ≠ .skipName
  atEnd : op = .hasNext → o = .bool false → k.mode.frames ≠ [] → k'.atEnd = true
  consumed : op = .consumeTrailingWhitespace → k'.gone = true

/-- after reading from a string value reader -/
structure StrStep (k : Know) (len : Nat) (bs : Bytes) (e : Bool) (k' : Know) : Prop where
  str : k'.str = some e
  gone : k'.gone = false
  ended : k.str = some true → e = true ∧ bs = [] ∧ k'.mode = k.mode ∧ k'.left = k.left
  left : k'.left ≤ k.left
  done : k.str = some false → e = true → k'.mode = k.mode.valueDone
  more : k.str = some false → e = false → k'.mode = k.mode ∧ len ≤ bs.length ∧ (3 < len → k'.left < k.left)

/-- the value has been consumed -/
structure Behind (k k' : Know) : Prop where
  free : k'.Free
  mode : k'.mode = k.mode.valueDone
  left : k'.left < k.left
/-- the mode is the same -/
structure Kept (k k' : Know) : Prop where
  free : k'.Free
  mode : k'.mode = k.mode
  left : k'.left ≤ k.left

variable {V : Type}

def may (multi : Bool) (k : Know) : SCall V → Prop
  | .op op => k.Free ∧ k.mode.allowed multi op = true
  | .stringStart => k.Free ∧ k.mode.canValue multi = true
  | .stringRead _ => k.gone = false ∧ ∃ e, k.str = some e
  | .deserialize d => k.Free ∧ k.mode.canValue multi = true ∧ DeSpec.Orderly d

def step (k : Know) : (c : SCall V) → SRes V c → Know → Prop
  | .op op => fun r k' => ∃ o, r = .ok o ∧ Step k op o k'
  | .stringStart => fun r k' => r = .ok () ∧ k'.gone = false ∧ k'.str = some false ∧ k'.mode = k.mode ∧ k'.left < k.left
  | .stringRead len => fun r k' => ∃ bs e, r = .ok bs ∧ StrStep k len bs e k'
  | .deserialize _ => fun r k' => ∃ v, r = .ok v ∧ Behind k k'

/-- (`current_position` does not fail) -/
def failed : (c : SCall V) → SRes V c → Bool
  | .op (.currentPosition _) => fun _ => false
  | .op _ => fun r => DeSpec.isError r
  | .stringStart => fun r => DeSpec.isError r
  | .stringRead _ => fun r => DeSpec.isError r
  | .deserialize _ => fun r => DeSpec.isError r

def rules (multi : Bool) : Rules (SCall V) (SRes V) Know where
  may := may multi
  step := step
  failed := failed
  bad := Misused

variable {α β : Type} {multi : Bool} {k k' k'' : Know} {fuel : Nat}

theorem Kept.trans (h : Kept k k') (h' : Kept k' k'') : Kept k k'' := ⟨h'.1, h'.2.trans h.2, Nat.le_trans h'.3 h.3⟩
theorem Kept.behind (h : Kept k k') (h' : Behind k' k'') : Behind k k'' := ⟨h'.1, h'.2.trans (congrArg _ h.2), Nat.lt_of_lt_of_le h'.3 h.3⟩

theorem failed_op {op : Op} {r : SRes V (.op op)} (h : failed (.op op : SCall V) r = true) : ∃ e, r = .error e := by
  cases r with
  | ok o => cases op <;> cases h
  | error e => exact ⟨e, rfl⟩

/-! ## Calls -/

theorem useDelegate_ok {c : SCall V} {f : SRes V c → Except SErr α} {Q : Know → α → Option Stored → Prop} (hm : may multi k c) (hf : ∀ r, failed c r = true → ∃ e, f r = .error e)
    (h : ∀ r k', step k c r k' → ∀ a, f r = .ok a → Q k' a none) : OK (rules multi) (useDelegate c f) none k Q := by
  refine ⟨hm, fun r => ⟨fun hr => ?_, fun _ k' hk => ?_⟩⟩
  · obtain ⟨e, he⟩ := hf r hr
    dsimp only [CT.run_bind, Calls.bind]
    rw [he]
    trivial
  · dsimp only [Calls.bind]
    cases he : f r with
    | error e => trivial
    | ok a => exact h r k' hk a he

theorem op_ok {op : Op} {f : Except RErr Out → Except SErr α} {Q : Know → α → Option Stored → Prop} (hm : k.Free) (ha : k.mode.allowed multi op = true) (hf : ∀ e, ∃ e', f (.error e) = .error e')
    (h : ∀ o a k', f (.ok o) = .ok a → Step k op o k' → Q k' a none) : OK (rules multi) (useDelegate (.op op) f : X V α) none k Q := by
  refine useDelegate_ok ⟨hm, ha⟩ (fun r hr => ?_) fun r k' hk a he => ?_
  · obtain ⟨e, rfl⟩ := failed_op hr
    exact hf e
  · obtain ⟨o, rfl, hk⟩ := hk
    exact h o a k' he hk

theorem unitCall_ok {op : Op} {Q : Know → Unit → Option Stored → Prop} (hm : k.Free) (ha : k.mode.allowed multi op = true) (h : ∀ o k', Step k op o k' → Q k' () none) :
    OK (rules multi) (unitCall op : X V Unit) none k Q := op_ok hm ha (fun _ => ⟨_, rfl⟩) fun o _ k' _ hk => h o k' hk

theorem boolCall_ok {op : Op} {Q : Know → Bool → Option Stored → Prop} (hm : k.Free) (ha : k.mode.allowed multi op = true) (h : ∀ x k', Step k op (.bool x) k' → Q k' x none) :
    OK (rules multi) (boolCall op : X V Bool) none k Q := op_ok hm ha (fun _ => ⟨_, rfl⟩) fun o x k' he hk => by cases o <;> cases he; exact h x k' hk

theorem textCall_ok {op : Op} {Q : Know → Text → Option Stored → Prop} (hm : k.Free) (ha : k.mode.allowed multi op = true) (h : ∀ x k', Step k op (.text x) k' → Q k' x none) :
    OK (rules multi) (textCall op : X V Text) none k Q := op_ok hm ha (fun _ => ⟨_, rfl⟩) fun o x k' he hk => by cases o <;> cases he; exact h x k' hk

theorem Step.free {op : Op} {o : Out} (h : Step k op o k') (hop : op ≠ .consumeTrailingWhitespace) : k'.Free := ⟨h.str, h.gone hop⟩

theorem Step.kept {op : Op} {o : Out} (h : Step k op o k') (hop : op = .peek ∨ op = .hasNext) : Kept k k' := by
  refine ⟨h.free (by rcases hop with rfl | rfl <;> nofun), ?_, h.left⟩
  rcases hop with rfl | rfl <;> exact h.mode

theorem peek_ok (hm : k.Free) (ha : k.mode.canValue multi = true) : OK (rules multi) (peek : X V ValueType) none k fun k' _ d => Kept k k' ∧ d = none ∧ k.atEnd = false := by
  refine op_ok hm ha (fun _ => ⟨_, rfl⟩) fun o x k' he hk => ⟨hk.kept (.inl rfl), rfl, ?_⟩
  cases h : k.atEnd with
  | false => rfl
  | true => exact absurd rfl (hk.was h).1

theorem hasNext_ok (hm : k.Free) (ha : k.mode.canHasNext multi = true) :
    OK (rules multi) (boolCall .hasNext : X V Bool) none k fun k' x d => Kept k k' ∧ d = none ∧ (x = false → k.mode.frames ≠ [] → k'.atEnd = true) :=
  boolCall_ok hm ha fun x k' hk => ⟨hk.kept (.inr rfl), rfl, fun hx => hk.atEnd rfl (by rw [hx])⟩

/-- methods which consume a value -/
def consumes : Op → Bool
  | .nextString | .nextStr | .nextNumberAsStr | .nextNumberAsString | .nextBool | .nextNull | .skipValue => true
  | _ => false

section
variable {op : Op}

theorem Step.behind (hc : consumes op = true) {o : Out} (h : Step k op o k') : Behind k k' := by
  cases op <;> first | cases hc; done | exact ⟨h.free nofun, h.mode, h.less rfl⟩

theorem consumes_allowed (hc : consumes op = true) (ha : k.mode.canValue multi = true) : k.mode.allowed multi op = true := by
  cases op <;> first | exact ha | cases hc

theorem unit_behind (hc : consumes op = true) (hm : k.Free) (ha : k.mode.canValue multi = true) : OK (rules multi) (unitCall op : X V Unit) none k fun k' _ d => Behind k k' ∧ d = none :=
  unitCall_ok hm (consumes_allowed hc ha) fun _ _ h => ⟨h.behind hc, rfl⟩
theorem bool_behind (hc : consumes op = true) (hm : k.Free) (ha : k.mode.canValue multi = true) : OK (rules multi) (boolCall op : X V Bool) none k fun k' _ d => Behind k k' ∧ d = none :=
  boolCall_ok hm (consumes_allowed hc ha) fun _ _ h => ⟨h.behind hc, rfl⟩
theorem text_behind (hc : consumes op = true) (hm : k.Free) (ha : k.mode.canValue multi = true) : OK (rules multi) (textCall op : X V Text) none k fun k' _ d => Behind k k' ∧ d = none :=
  textCall_ok hm (consumes_allowed hc ha) fun _ _ h => ⟨h.behind hc, rfl⟩
end

/-- the name of a member is read -/
theorem Step.name {op : Op} {o : Out} {fs : List Frame} {st : Bool} (h : Step k op o k') (hm : k.mode = ⟨.objectName :: fs, st, false⟩) (hop : op = .nextName ∨ op = .nextNameOwned ∨ op = .skipName) :
    k'.Free ∧ k'.mode = ⟨.objectValue :: fs, st, false⟩ ∧ k'.left < k.left ∧ (op = .skipName → k.atEnd = false) := by
  refine ⟨h.free (by rcases hop with rfl | rfl | rfl <;> nofun), ?_, h.less (by rcases hop with rfl | rfl | rfl <;> rfl), fun e => ?_⟩
  · rw [h.mode, hm]
    rcases hop with rfl | rfl | rfl <;> rfl
  · cases ha : k.atEnd with
    | false => rfl
    | true => exact absurd e (h.was ha).2

theorem canName_allowed {op : Op} {fs : List Frame} {st : Bool} (hm : k.mode = ⟨.objectName :: fs, st, false⟩) (hop : op = .nextName ∨ op = .nextNameOwned ∨ op = .skipName ∨ op = .endObject) :
    k.mode.allowed multi op = true := by
  rw [hm]
  rcases hop with rfl | rfl | rfl | rfl <;> rfl

theorem skipName_ok {fs : List Frame} {st : Bool} (hm : k.Free) (hk : k.mode = ⟨.objectName :: fs, st, false⟩) : OK (rules multi) (unitCall .skipName : X V Unit) none k fun k' _ d =>
    k'.Free ∧ k'.mode = ⟨.objectValue :: fs, st, false⟩ ∧ k'.left < k.left ∧ k.atEnd = false ∧ d = none := by
  refine unitCall_ok hm (canName_allowed hk (.inr (.inr (.inl rfl)))) fun o k' h => ?_
  obtain ⟨h1, h2, h3, h4⟩ := h.name hk (.inr (.inr rfl))
  exact ⟨h1, h2, h3, h4 rfl, rfl⟩

theorem canValue_str {m : Mode} (h : m.canValue multi = true) : m.str = false := by
  unfold Mode.canValue at h
  cases hs : m.str with
  | false => rfl
  | true => rw [hs] at h; cases h

theorem beginArray_ok (hm : k.Free) (ha : k.mode.canValue multi = true) : OK (rules multi) (unitCall .beginArray : X V Unit) none k fun k' _ d =>
    k'.Free ∧ k'.mode = ⟨.array :: k.mode.frames, k.mode.started, false⟩ ∧ k'.left < k.left ∧ d = none := by
  refine unitCall_ok hm ha fun o k' h => ⟨h.free nofun, h.mode.trans ?_, h.less rfl, rfl⟩
  rw [← canValue_str ha]
  rfl

theorem beginObject_ok (hm : k.Free) (ha : k.mode.canValue multi = true) : OK (rules multi) (unitCall .beginObject : X V Unit) none k fun k' _ d =>
    k'.Free ∧ k'.mode = ⟨.objectName :: k.mode.frames, k.mode.started, false⟩ ∧ k'.left < k.left ∧ d = none := by
  refine unitCall_ok hm ha fun o k' h => ⟨h.free nofun, h.mode.trans ?_, h.less rfl, rfl⟩
  rw [← canValue_str ha]
  rfl

theorem endArray_ok {m : Mode} (hm : k.Free) (hs : m.str = false) (hk : k.mode = ⟨.array :: m.frames, m.started, false⟩) : OK (rules multi) (unitCall .endArray : X V Unit) none k fun k' _ d =>
    k'.Free ∧ k'.mode = m.valueDone ∧ k'.left < k.left ∧ d = none := by
  refine unitCall_ok hm (by rw [hk]; rfl) fun o k' h => ⟨h.free nofun, h.mode.trans ?_, h.less rfl, rfl⟩
  rw [hk, ← hs]
  rfl

theorem endObject_ok {m : Mode} (hm : k.Free) (hs : m.str = false) (hk : k.mode = ⟨.objectName :: m.frames, m.started, false⟩) : OK (rules multi) (unitCall .endObject : X V Unit) none k fun k' _ d =>
    k'.Free ∧ k'.mode = m.valueDone ∧ k'.left < k.left ∧ d = none := by
  refine unitCall_ok hm (by rw [hk]; rfl) fun o k' h => ⟨h.free nofun, h.mode.trans ?_, h.less rfl, rfl⟩
  rw [hk, ← hs]
  rfl

/-! ## Strings -/

theorem stringRead_ok {len : Nat} (hm : k.gone = false) {e : Bool} (he : k.str = some e) :
    OK (rules multi) (stringRead len : X V Bytes) none k fun k' bs d => (∃ e', StrStep k len bs e' k') ∧ d = none := by
  refine ⟨⟨hm, e, he⟩, fun r => ⟨fun hr => ?_, fun _ k' hk => ?_⟩⟩
  · cases r with
    | ok x => cases hr
    | error x => trivial
  · obtain ⟨bs, e', rfl, h⟩ := hk
    exact ⟨⟨e', h⟩, rfl⟩

/-- In the string, or behind it. `k0`: before the string -/
structure Inside (k0 : Know) (k : Know) : Prop where
  gone : k.gone = false
  left : k.left < k0.left
  str : ∃ e, k.str = some e ∧ k.mode = if e then k0.mode.valueDone else k0.mode

theorem StrStep.inside {k0 : Know} {len : Nat} {bs : Bytes} {e : Bool} (h : StrStep k len bs e k') (hi : Inside k0 k) : Inside k0 k' := by
  refine ⟨h.gone, Nat.lt_of_le_of_lt h.left hi.left, e, h.str, ?_⟩
  obtain ⟨e0, h1, h2⟩ := hi.str
  cases e0 with
  | true =>
    obtain ⟨h3, h4, h5, h6⟩ := h.ended h1
    rw [h3, h5, h2]
  | false =>
    cases e with
    | true => rw [h.done h1 rfl, h2]; rfl
    | false => rw [(h.more h1 rfl).1, h2]

theorem StrStep.ended' {k0 : Know} {len : Nat} {bs : Bytes} {e : Bool} (h : StrStep k len bs e k') (hi : Inside k0 k) (hb : bs.length = 0) (hl : 0 < len) : e = true := by
  obtain ⟨e0, h1, h2⟩ := hi.str
  cases e0 with
  | true => exact (h.ended h1).1
  | false =>
    cases e with
    | true => rfl
    | false => have := (h.more h1 rfl).2.1; omega

theorem strC_ok {k0 : Know} : (f : StrC V) → StopsStr f → ∀ {k : Know}, Inside k0 k → OK (rules multi) (strC f) none k fun k' _ d => Inside k0 k' ∧ d = none
  | .ret r, _, k, h => by
    rw [strC]
    exact ok_ofExcept fun _ _ => ⟨h, rfl⟩
  | .read len f, hf, k, h => by
    rw [StopsStr] at hf
    rw [strC]
    obtain ⟨e, he, _⟩ := h.str
    refine OK.attempt (stringRead_ok h.gone he) (fun k1 bs d h1 => ?_) fun e d => ?_
    · obtain ⟨⟨e1, h1⟩, rfl⟩ := h1
      exact strC_ok (f (.ok bs)) (hf.1 bs) (h1.inside h)
    · obtain ⟨e', he⟩ := hf.2 e
      dsimp only
      rw [he, strC]
      trivial

theorem skipString_ok {k0 : Know} : ∀ {fuel : Nat} {k : Know}, Inside k0 k → k.left < fuel ∨ k.str = some true →
    OK (rules multi) (skipString fuel : X V Unit) none k fun k' _ d => (Inside k0 k' ∧ k'.str = some true) ∧ d = none := by
  intro fuel
  induction fuel with
  | zero =>
    intro k h hl
    have hl := hl.resolve_left (Nat.not_lt_zero _)
    rw [skipString]
    refine OK.bind (stringRead_ok h.gone hl) fun k1 bs d h1 => ?_
    obtain ⟨⟨e1, h1⟩, rfl⟩ := h1
    obtain ⟨h2, rfl, h3, h4⟩ := h1.ended hl
    refine ok_pure ⟨⟨h1.inside h, by rw [h1.str, h2]⟩, rfl⟩
  | succ fuel ih =>
    intro k h hl
    obtain ⟨e, he, _⟩ := h.str
    rw [skipString]
    refine OK.bind (stringRead_ok h.gone he) fun k1 bs d h1 => ?_
    obtain ⟨⟨e1, h1⟩, rfl⟩ := h1
    have h2 := h1.inside h
    split
    · refine ih h2 ?_
      cases e1 with
      | true => exact .inr h1.str
      | false =>
        refine .inl ?_
        cases e with
        | true => exact Bool.noConfusion (h1.ended he).1
        | false =>
          have := (h1.more he rfl).2.2 (by decide)
          rcases hl with hl | hl
          · omega
          · rw [he] at hl; cases hl
    · rename_i hb
      refine ok_pure ⟨⟨h2, ?_⟩, rfl⟩
      rw [h1.str, h1.ended' h (by omega) (by decide)]

theorem readString_ok {f : StrC V} (hf : StopsStr f) (hm : k.Free) (ha : k.mode.canValue multi = true) (hl : 2 * k.left < fuel) :
    OK (rules multi) (readStringWithReader fuel f) none k fun k' _ d => Behind k k' ∧ d = none := by
  rw [readStringWithReader]
  refine OK.bind (Q := fun k' _ d => Inside k k' ∧ d = none) (useDelegate_ok ⟨hm, ha⟩ ?_ ?_) fun k1 _ d h1 => ?_
  · intro r hr
    cases r with
    | ok x => cases hr
    | error x => exact ⟨_, rfl⟩
  · rintro r k' ⟨rfl, h1, h2, h3, h4⟩ a -
    exact ⟨⟨h1, h4, false, h2, h3⟩, rfl⟩
  obtain ⟨h1, rfl⟩ := h1
  refine OK.bind (strC_ok f hf h1) fun k2 result d h2 => ?_
  obtain ⟨h2, rfl⟩ := h2
  have hfin : ∀ k', Inside k k' → k'.str = some true → Behind k k' := fun k' h hs => by
    obtain ⟨e, h3, h4⟩ := h.str
    rw [hs] at h3
    cases h3
    exact ⟨⟨by rw [hs]; nofun, h.gone⟩, h4, h.left⟩
  show OK (rules multi) (stringRead Utf8.maxBytesPerChar >>= _) none k2 _
  obtain ⟨e, he, _⟩ := h2.str
  refine OK.bind (stringRead_ok h2.gone he) fun k3 bs d h3 => ?_
  obtain ⟨⟨e3, h3⟩, rfl⟩ := h3
  have h4 := h3.inside h2
  dsimp only
  split
  · refine OK.bind (skipString_ok h4 (.inl ?_)) fun k5 _ d h5 => ?_
    · have := h4.left
      omega
    · obtain ⟨⟨h5, h6⟩, rfl⟩ := h5
      exact ok_pure ⟨hfin _ h5 h6, rfl⟩
  · rename_i hb
    refine ok_pure ⟨hfin _ h4 ?_, rfl⟩
    rw [h3.str, h3.ended' h2 (by omega) (by decide)]

/-! ## Loops -/

/-- Closure in front of a value. `F`: fuel -/
def ValOk (multi : Bool) (m : Mode) (F : Nat) (f : X V (V × Bool)) : Prop := ∀ k, k.Free → k.mode = m → 2 * k.left < F →
  OK (rules multi) f none k fun k' a d => (if a.2 then Behind k k' else Kept k k') ∧ d = none

/-- Closure in front of a member -/
def MemOk (multi : Bool) (fs : List Frame) (st : Bool) (F : Nat) (cn : Bool) (f : X V (V × Bool × Bool)) : Prop :=
  ∀ k, k.Free → k.mode = ⟨(if cn then .objectValue else .objectName) :: fs, st, false⟩ → 2 * k.left < F →
  OK (rules multi) f none k fun k' a d => (k'.Free ∧ k'.mode = ⟨(if a.2.2 then .objectName else if a.2.1 then .objectValue else .objectName) :: fs, st, false⟩ ∧
    (a.2.2 = true → a.2.1 = true ∧ k'.left < k.left) ∧ k'.left ≤ k.left) ∧ d = none

variable {m : Mode} {F : Nat} {fs : List Frame} {st : Bool}

theorem readValue_ok {f : X V (V × Bool)} (hf : ValOk multi m F f) (ha : m.canValue multi = true) (hm : k.Free) (hk : k.mode = m) (hl : 2 * k.left < F) :
    OK (rules multi) (readValue f) none k fun k' _ d => Behind k k' ∧ d = none := by
  rw [readValue]
  refine OK.bind (hf k hm hk hl) fun k1 a d h1 => ?_
  obtain ⟨v, c⟩ := a
  obtain ⟨h1, rfl⟩ := h1
  cases c with
  | true =>
    exact ok_pure ⟨h1, rfl⟩
  | false =>
    have h1 : Kept k k1 := h1
    refine OK.bind (unit_behind rfl h1.free (by rw [h1.mode, hk]; exact ha)) fun k2 _ d h2 => ?_
    exact ok_pure ⟨h1.behind h2.1, h2.2⟩

theorem itemsLoop_ok {f : V → X V (V × Bool)} (hf : ∀ v, ValOk multi ⟨.array :: fs, st, false⟩ F (f v)) : ∀ {fuel : Nat} {k : Know} {v : V}, k.Free → k.mode = ⟨.array :: fs, st, false⟩ →
    k.left < fuel → 2 * k.left < F → OK (rules multi) (itemsLoop f fuel v) none k fun k' _ d => Kept k k' ∧ d = none := by
  intro fuel
  induction fuel with
  | zero => intro k v _ _ h; omega
  | succ fuel ih =>
    intro k v hm hk hl hF
    rw [itemsLoop]
    refine OK.bind (hasNext_ok hm (by rw [hk]; rfl)) fun k1 x d h1 => ?_
    obtain ⟨h1, rfl, _⟩ := h1
    have := h1.left
    cases x with
    | false => exact ok_pure ⟨h1, rfl⟩
    | true =>
      refine OK.bind (readValue_ok (hf v) rfl h1.free (h1.mode.trans hk) (by omega)) fun k2 v' d h2 => ?_
      obtain ⟨h2, rfl⟩ := h2
      have := h2.left
      have hm2 : k2.mode = ⟨.array :: fs, st, false⟩ := by rw [h2.mode, h1.mode, hk]; rfl
      refine OK.mono (ih h2.free hm2 (by omega) (by omega)) fun k3 _ d h3 => ⟨⟨h3.1.free, ?_, ?_⟩, h3.2⟩
      · rw [h3.1.mode, hm2, hk]
      · have := h3.1.left
        omega

theorem skipMember_ok (hm : k.Free) (hk : k.mode = ⟨.objectValue :: fs, st, false⟩) :
    OK (rules multi) (unitCall .skipValue : X V Unit) none k fun k' _ d => (k'.Free ∧ k'.mode = ⟨.objectName :: fs, st, false⟩ ∧ k'.left < k.left) ∧ d = none :=
  OK.mono (unit_behind rfl hm (by rw [hk]; rfl)) fun k' _ d h => ⟨⟨h.1.free, by rw [h.1.mode, hk]; rfl, h.1.left⟩, h.2⟩

theorem borrowedLoop_ok {f : V → X V (V × Bool × Bool)} (hf : ∀ v, MemOk multi fs st F false (f v)) : ∀ {fuel : Nat} {k : Know} {v : V}, k.Free → k.mode = ⟨.objectName :: fs, st, false⟩ →
    k.left < fuel → 2 * k.left < F → OK (rules multi) (borrowedLoop f fuel v) none k fun k' _ d => Kept k k' ∧ d = none := by
  intro fuel
  induction fuel with
  | zero => intro k v _ _ h; omega
  | succ fuel ih =>
    intro k v hm hk hl hF
    rw [borrowedLoop]
    refine OK.bind (hasNext_ok hm (by rw [hk]; rfl)) fun k1 x d h1 => ?_
    obtain ⟨h1, rfl, _⟩ := h1
    have := h1.left
    cases x with
    | false => exact ok_pure ⟨h1, rfl⟩
    | true =>
      refine OK.bind (hf v k1 h1.free (h1.mode.trans hk) (by omega)) fun k2 a d h2 => ?_
      obtain ⟨v', cn, cv⟩ := a
      obtain ⟨⟨h2, h3, h4, h5⟩, rfl⟩ := h2
      dsimp only at h3 h4
      have H : ∀ k4 : Know, k4.Free → k4.mode = ⟨.objectName :: fs, st, false⟩ → k4.left < k1.left → OK (rules multi) (borrowedLoop f fuel v') none k4 fun k' _ d => Kept k k' ∧ d = none := by
        intro k4 h10 h11 h12
        refine OK.mono (ih h10 h11 (by omega) (by omega)) fun k5 _ d h => ⟨⟨h.1.free, ?_, ?_⟩, h.2⟩
        · rw [h.1.mode, h11, hk]
        · have := h.1.left
          omega
      have H2 : ∀ k3 : Know, k3.Free → k3.mode = ⟨.objectValue :: fs, st, false⟩ → k3.left ≤ k1.left →
          OK (rules multi) (unitCall .skipValue >>= fun _ => borrowedLoop f fuel v') none k3 fun k' _ d => Kept k k' ∧ d = none := by
        intro k3 h6 h7 h8
        refine OK.bind (skipMember_ok h6 h7) fun k4 _ d h => ?_
        obtain ⟨⟨h10, h11, h12⟩, rfl⟩ := h
        exact H k4 h10 h11 (by omega)
      cases cv with
      | true =>
        obtain ⟨rfl, h6⟩ := h4 rfl
        exact H k2 h2 h3 h6
      | false =>
        cases cn with
        | true => exact H2 k2 h2 h3 h5
        | false =>
          refine OK.bind (skipName_ok h2 h3) fun k3 _ d h6 => ?_
          obtain ⟨h6, h7, h8, _, rfl⟩ := h6
          exact H2 k3 h6 h7 (by omega)

theorem nextName_ok {op : Op} (hop : op = .nextName ∨ op = .nextNameOwned) (hm : k.Free) (hk : k.mode = ⟨.objectName :: fs, st, false⟩) : OK (rules multi) (textCall op : X V Text) none k fun k' _ d =>
    (k'.Free ∧ k'.mode = ⟨.objectValue :: fs, st, false⟩ ∧ k'.left < k.left) ∧ d = none := by
  refine textCall_ok hm (canName_allowed hk (by rcases hop with rfl | rfl <;> simp)) fun o k' h => ?_
  obtain ⟨h1, h2, h3, h4⟩ := h.name hk (by rcases hop with rfl | rfl <;> simp)
  exact ⟨⟨h1, h2, h3⟩, rfl⟩

theorem checkSkipName_ok {cn : Bool} (hm : k.Free) (hk : k.mode = ⟨(if cn then .objectValue else .objectName) :: fs, st, false⟩) :
    OK (rules multi) (checkSkipName cn : X V Unit) none k fun k' _ d => (k'.Free ∧ k'.mode = ⟨.objectValue :: fs, st, false⟩ ∧ k'.left ≤ k.left) ∧ d = none := by
  cases cn with
  | true => exact ok_pure ⟨⟨hm, hk, Nat.le_refl _⟩, rfl⟩
  | false => exact OK.mono (skipName_ok hm hk) fun k' _ d h => ⟨⟨h.1, h.2.1, Nat.le_of_lt h.2.2.1⟩, h.2.2.2.2⟩

/-- the value of a member -/
theorem memberValue_ok {f : X V (V × Bool)} (hf : ValOk multi ⟨.objectValue :: fs, st, false⟩ F f) (hm : k.Free) (hk : k.mode = ⟨.objectValue :: fs, st, false⟩) (hl : 2 * k.left < F) :
    OK (rules multi) (readValue f) none k fun k' _ d => (k'.Free ∧ k'.mode = ⟨.objectName :: fs, st, false⟩ ∧ k'.left < k.left) ∧ d = none :=
  OK.mono (readValue_ok hf rfl hm hk hl) fun k' _ d h => ⟨⟨h.1.free, by rw [h.1.mode, hk]; rfl, h.1.left⟩, h.2⟩

theorem ownedLoop_ok {f : V → Text → X V (V × Bool)} (hf : ∀ v n, ValOk multi ⟨.objectValue :: fs, st, false⟩ F (f v n)) : ∀ {fuel : Nat} {k : Know} {v : V}, k.Free →
    k.mode = ⟨.objectName :: fs, st, false⟩ → k.left < fuel → 2 * k.left < F → OK (rules multi) (ownedLoop f fuel v) none k fun k' _ d => Kept k k' ∧ d = none := by
  intro fuel
  induction fuel with
  | zero => intro k v _ _ h; omega
  | succ fuel ih =>
    intro k v hm hk hl hF
    rw [ownedLoop]
    refine OK.bind (hasNext_ok hm (by rw [hk]; rfl)) fun k1 x d h1 => ?_
    obtain ⟨h1, rfl, _⟩ := h1
    have := h1.left
    cases x with
    | false => exact ok_pure ⟨h1, rfl⟩
    | true =>
      refine OK.bind (nextName_ok (.inr rfl) h1.free (h1.mode.trans hk)) fun k2 n d h2 => ?_
      obtain ⟨⟨h2, h3, h4⟩, rfl⟩ := h2
      refine OK.bind (hf v n k2 h2 h3 (by omega)) fun k3 a d h5 => ?_
      obtain ⟨v', c⟩ := a
      obtain ⟨h5, rfl⟩ := h5
      have H : ∀ k4 : Know, k4.Free → k4.mode = ⟨.objectName :: fs, st, false⟩ → k4.left < k2.left → OK (rules multi) (ownedLoop f fuel v') none k4 fun k' _ d => Kept k k' ∧ d = none := by
        intro k4 h10 h11 h12
        refine OK.mono (ih h10 h11 (by omega) (by omega)) fun k5 _ d h => ⟨⟨h.1.free, ?_, ?_⟩, h.2⟩
        · rw [h.1.mode, h11, hk]
        · have := h.1.left
          omega
      cases c with
      | true => exact H k3 (Behind.free h5) (by rw [Behind.mode h5, h3]; rfl) (Behind.left h5)
      | false =>
        have h5 : Kept k2 k3 := h5
        refine OK.bind (skipMember_ok h5.free (h5.mode.trans h3)) fun k4 _ d h => ?_
        obtain ⟨⟨h10, h11, h12⟩, rfl⟩ := h
        have := h5.left
        exact H k4 h10 h11 (by omega)

theorem findMember_ok {name : Text} : ∀ {fuel : Nat} {k : Know}, k.Free → k.mode = ⟨.objectName :: fs, st, false⟩ → k.left < fuel →
    OK (rules multi) (findMember name fuel : X V Bool) none k fun k' x d => (k'.Free ∧ k'.mode = ⟨(if x then .objectValue else .objectName) :: fs, st, false⟩ ∧ k'.left ≤ k.left) ∧ d = none := by
  intro fuel
  induction fuel with
  | zero => intro k _ _ h; omega
  | succ fuel ih =>
    intro k hm hk hl
    rw [findMember]
    refine OK.bind (hasNext_ok hm (by rw [hk]; rfl)) fun k1 x d h1 => ?_
    obtain ⟨h1, rfl, _⟩ := h1
    have := h1.left
    cases x with
    | false => exact ok_pure ⟨⟨h1.free, h1.mode.trans hk, this⟩, rfl⟩
    | true =>
      refine OK.bind (nextName_ok (.inl rfl) h1.free (h1.mode.trans hk)) fun k2 n d h2 => ?_
      obtain ⟨⟨h2, h3, h4⟩, rfl⟩ := h2
      split
      · exact ok_pure ⟨⟨h2, h3, by omega⟩, rfl⟩
      · refine OK.bind (skipMember_ok h2 h3) fun k3 _ d h5 => ?_
        obtain ⟨⟨h5, h6, h7⟩, rfl⟩ := h5
        refine OK.mono (ih h5 h6 (by omega)) fun k5 _ d h => ⟨⟨h.1.1, h.1.2.1, ?_⟩, h.2⟩
        have := h.1.2.2
        omega

theorem skipMembers_ok : ∀ {fuel : Nat} {k : Know}, k.Free → k.mode = ⟨.objectName :: fs, st, false⟩ → k.left < fuel →
    OK (rules multi) (skipMembers fuel : X V Unit) none k fun k' _ d => Kept k k' ∧ d = none := by
  intro fuel
  induction fuel with
  | zero => intro k _ _ h; omega
  | succ fuel ih =>
    intro k hm hk hl
    rw [skipMembers]
    refine OK.bind (hasNext_ok hm (by rw [hk]; rfl)) fun k1 x d h1 => ?_
    obtain ⟨h1, rfl, _⟩ := h1
    have := h1.left
    cases x with
    | false => exact ok_pure ⟨h1, rfl⟩
    | true =>
      refine OK.bind (skipName_ok h1.free (h1.mode.trans hk)) fun k2 n d h2 => ?_
      obtain ⟨h2, h3, h4, _, rfl⟩ := h2
      refine OK.bind (skipMember_ok h2 h3) fun k3 _ d h5 => ?_
      obtain ⟨⟨h5, h6, h7⟩, rfl⟩ := h5
      refine OK.mono (ih h5 h6 (by omega)) fun k5 _ d h => ⟨⟨h.1.free, ?_, ?_⟩, h.2⟩
      · rw [h.1.mode, h6, hk]
      · have := h.1.left
        omega

theorem membersLoop_ok {f : V → X V (V × Bool)} (hf : ∀ v, ValOk multi ⟨.objectValue :: fs, st, false⟩ F (f v)) : ∀ {fuel : Nat} {k : Know} {v : V}, k.Free →
    k.mode = ⟨.objectName :: fs, st, false⟩ → k.left < fuel → 2 * k.left < F → OK (rules multi) (membersLoop f fuel v) none k fun k' _ d => Kept k k' ∧ d = none := by
  intro fuel
  induction fuel with
  | zero => intro k v _ _ h; omega
  | succ fuel ih =>
    intro k v hm hk hl hF
    rw [membersLoop]
    refine OK.bind (hasNext_ok hm (by rw [hk]; rfl)) fun k1 x d h1 => ?_
    obtain ⟨h1, rfl, _⟩ := h1
    have := h1.left
    cases x with
    | false => exact ok_pure ⟨h1, rfl⟩
    | true =>
      refine OK.bind (skipName_ok h1.free (h1.mode.trans hk)) fun k2 n d h2 => ?_
      obtain ⟨h2, h3, h4, _, rfl⟩ := h2
      refine OK.bind (memberValue_ok (hf v) h2 h3 (by omega)) fun k3 _ d h5 => ?_
      obtain ⟨⟨h5, h6, h7⟩, rfl⟩ := h5
      refine OK.mono (ih h5 h6 (by omega) (by omega)) fun k5 _ d h => ⟨⟨h.1.free, ?_, ?_⟩, h.2⟩
      · rw [h.1.mode, h6, hk]
      · have := h.1.left
        omega

/-! ## Multi path -/

/-- the arrays and objects which are opened for a part of the path, innermost first -/
def pframes : PartialPath → List Frame
  | .jsonPath p => p.reverse.map Mode.pieceFrame
  | .allArrayItems _ => [.array]
  | .optionalObjectMember _ => [.objectValue]
  | .allObjectMembers _ => [.objectValue]

/-- the mode below the first `i` parts of the path -/
def under (m : Mode) (path : List PartialPath) : Nat → Mode
  | 0 => m
  | i + 1 => match path[i]? with
    | some p => { under m path i with frames := pframes p ++ (under m path i).frames }
    | none => m

/-- a value is expected, also below arrays and objects where values are expected -/
theorem canValue_push {l : List Frame} (ha : m.canValue multi = true) (hl : ∀ f ∈ l, f ≠ .objectName) : Mode.canValue multi { m with frames := l ++ m.frames } = true := by
  cases l with
  | nil => exact ha
  | cons f l =>
    have hs := canValue_str ha
    obtain ⟨fr, sd, str⟩ := m
    cases hs
    cases f with
    | objectName => exact absurd rfl (hl _ (List.mem_cons_self ..))
    | array => rfl
    | objectValue => rfl

theorem pieces_ne (p : List PathPiece) : ∀ f ∈ p.map Mode.pieceFrame, f ≠ .objectName := by
  intro f hf
  obtain ⟨q, _, rfl⟩ := List.mem_map.mp hf
  cases q <;> nofun

theorem pframes_ne (p : PartialPath) : ∀ f ∈ pframes p, f ≠ .objectName := by
  cases p with
  | jsonPath p => exact pieces_ne _
  | _ => intro f hf; simp only [pframes, List.mem_singleton] at hf; rw [hf]; nofun

theorem under_succ {path : List PartialPath} {i : Nat} {p : PartialPath} (h : path[i]? = some p) : under m path (i + 1) = { under m path i with frames := pframes p ++ (under m path i).frames } := by
  rw [under, h]

theorem under_canValue {path : List PartialPath} (ha : m.canValue multi = true) : ∀ i, (under m path i).canValue multi = true
  | 0 => ha
  | i + 1 => by
    rw [under]
    split
    · exact canValue_push (under_canValue ha i) (pframes_ne _)
    · exact ha

theorem foldl_pop : ∀ (p q : List PathPiece) (m : Mode), p.length = q.length → p.foldl (fun m _ => m.pop) m = q.foldl (fun m _ => m.pop) m
  | [], [], _, _ => rfl
  | _ :: p, _ :: q, m, h => foldl_pop p q m.pop (Nat.succ.inj h)

/-- behind a value, the path can be left -/
theorem seekBack_mode : ∀ (p : List PathPiece) {m : Mode}, m.str = false →
    Mode.canSeekBack p (Mode.valueDone { m with frames := p.map Mode.pieceFrame ++ m.frames }) = true ∧
      p.foldl (fun m _ => m.pop) (Mode.valueDone { m with frames := p.map Mode.pieceFrame ++ m.frames }) = m.valueDone
  | [], m, _ => ⟨rfl, rfl⟩
  | q :: p, m, hs => by
    have ih := seekBack_mode p hs
    obtain ⟨fr, sd, str⟩ := m
    cases hs
    cases q with
    | arrayItem i => exact ih
    | objectMember n => exact ih

theorem seek_advances {p : List PathPiece} (h : p ≠ []) : advances (.seekTo p) = true ∧ advances (.seekBack p) = true := by
  cases p with
  | nil => exact absurd rfl h
  | cons _ _ => exact ⟨rfl, rfl⟩

theorem seekTo_ok {p : List PathPiece} (hm : k.Free) (ha : k.mode.canValue multi = true) : OK (rules multi) (unitCall (.seekTo p) : X V Unit) none k fun k' _ d =>
    (k'.Free ∧ k'.mode = { k.mode with frames := p.reverse.map Mode.pieceFrame ++ k.mode.frames } ∧ k'.left ≤ k.left ∧ (p ≠ [] → k'.left < k.left)) ∧ d = none :=
  unitCall_ok hm ha fun o k' h => ⟨⟨h.free nofun, h.mode, h.left, fun hp => h.less (seek_advances hp).1⟩, rfl⟩

theorem seekBack_ok {p : List PathPiece} {m : Mode} (hs : m.str = false) (hm : k.Free) (hk : k.mode = Mode.valueDone { m with frames := p.reverse.map Mode.pieceFrame ++ m.frames }) :
    OK (rules multi) (unitCall (.seekBack p) : X V Unit) none k fun k' _ d => (k'.Free ∧ k'.mode = m.valueDone ∧ k'.left ≤ k.left ∧ (p ≠ [] → k'.left < k.left)) ∧ d = none := by
  obtain ⟨h1, h2⟩ := seekBack_mode p.reverse hs
  refine unitCall_ok hm (by rw [hk]; exact h1) fun o k' h => ⟨⟨h.free nofun, ?_, h.left, fun hp => h.less (seek_advances hp).2⟩, rfl⟩
  rw [h.mode, hk, ← h2]
  exact foldl_pop _ _ _ (List.length_reverse ..).symm

theorem checkNotEmpty_ok {α : Type} {allowEmpty : Bool} {op : X V α} (hm : k.Free) (ha : k.mode.canHasNext multi = true) (hf : k.mode.frames ≠ [])
    (hop : ∀ k', Kept k k' → k'.atEnd = true → OK (rules multi) op none k' fun _ _ _ => False) :
    OK (rules multi) (checkNotEmpty allowEmpty op) none k fun k' _ d => Kept k k' ∧ d = none := by
  cases allowEmpty with
  | true => exact ok_pure ⟨⟨hm, rfl, Nat.le_refl _⟩, rfl⟩
  | false =>
    rw [checkNotEmpty]
    refine OK.bind (hasNext_ok hm ha) fun k1 x d h1 => ?_
    obtain ⟨h1, rfl, h2⟩ := h1
    cases x with
    | true => exact ok_pure ⟨h1, rfl⟩
    | false => exact OK.attempt (hop k1 h1 (h2 rfl hf)) (fun _ _ _ h => h.elim) fun e d => trivial

/-- the position in the path, and where the reader is -/
structure Pos (m : Mode) (path : List PartialPath) (l : Nat) (i : Nat) (down : Bool) (k : Know) : Prop where
  free : k.Free
  mode : k.mode = if down then under m path i else (under m path i).valueDone
  left : k.left < l ∨ down = true ∧ k.left ≤ l

theorem multiPiece_ok {path : List PartialPath} {i : Nat} {p : PartialPath} {down : Bool} (hm : k.Free) (ha : m.canValue multi = true) (hp : path[i]? = some p) (hne : .jsonPath [] ∉ path)
    (hk : k.mode = if down then under m path i else (under m path (i + 1)).valueDone) (hl : k.left < fuel) :
    OK (rules multi) (multiPiece fuel i down p : X V (Nat × Bool)) none k fun k' a d =>
      (a = (i + 1, true) ∨ a = (i, false)) ∧ Pos m path k.left a.1 a.2 k' ∧ (down = true → k'.left < k.left) ∧ d = none := by
  have ha' := under_canValue (path := path) ha i
  have hs' := canValue_str ha'
  rw [under_succ hp] at hk
  have hsucc := under_succ (m := m) hp
  cases p with
  | jsonPath q =>
    have hq : q ≠ [] := by rintro rfl; exact hne (List.mem_of_getElem? hp)
    cases down with
    | true =>
      have hk : k.mode = under m path i := hk
      refine OK.bind (seekTo_ok hm (by rw [hk]; exact ha')) fun k1 _ d h1 => ?_
      obtain ⟨⟨h1, h2, h3, h4⟩, rfl⟩ := h1
      refine ok_pure ⟨.inl rfl, ⟨h1, ?_, .inl (h4 hq)⟩, fun _ => h4 hq, rfl⟩
      dsimp only
      rw [h2, hk, hsucc]
      rfl
    | false =>
      refine OK.bind (seekBack_ok hs' hm hk) fun k1 _ d h1 => ?_
      obtain ⟨⟨h1, h2, h3, h4⟩, rfl⟩ := h1
      exact ok_pure ⟨.inr rfl, ⟨h1, h2, .inl (h4 hq)⟩, nofun, rfl⟩
  | allArrayItems allowEmpty =>
    have H : ∀ k1 : Know, k1.Free → k1.mode = ⟨.array :: (under m path i).frames, (under m path i).started, false⟩ → k1.left ≤ k.left → (down = true → k1.left < k.left) →
        OK (rules multi) (boolCall .hasNext >>= fun x => if x then pure (i + 1, true) else unitCall .endArray >>= fun _ => pure (i, false) : X V (Nat × Bool)) none k1 fun k' a d =>
          (a = (i + 1, true) ∨ a = (i, false)) ∧ Pos m path k.left a.1 a.2 k' ∧ (down = true → k'.left < k.left) ∧ d = none := by
      intro k1 h1 h2 h3 h3'
      refine OK.bind (hasNext_ok h1 (by rw [h2]; rfl)) fun k2 x d h4 => ?_
      obtain ⟨h4, rfl, _⟩ := h4
      have := h4.left
      cases x with
      | true =>
        refine ok_pure ⟨.inl rfl, ⟨h4.free, ?_, .inr ⟨rfl, by omega⟩⟩, fun hd => by have := h3' hd; omega, rfl⟩
        dsimp only
        rw [h4.mode, h2, hsucc, ← hs']
        rfl
      | false =>
        refine OK.bind (endArray_ok h4.free hs' (h4.mode.trans h2)) fun k3 _ d h5 => ?_
        obtain ⟨h5, h6, h7, rfl⟩ := h5
        exact ok_pure ⟨.inr rfl, ⟨h5, h6, .inl (by omega)⟩, fun _ => by omega, rfl⟩
    cases down with
    | true =>
      have hk : k.mode = under m path i := hk
      refine OK.bind (beginArray_ok hm (by rw [hk]; exact ha')) fun k1 _ d h1 => ?_
      obtain ⟨h1, h2, h3, rfl⟩ := h1
      rw [hk] at h2
      refine OK.bind (checkNotEmpty_ok h1 (by rw [h2]; rfl) (by rw [h2]; nofun) fun k' h he => ?_) fun k2 _ d h4 => ?_
      · refine OK.mono (peek_ok h.free (by rw [h.mode, h2]; rfl)) fun _ _ _ h => ?_
        rw [he] at h
        cases h.2.2
      · obtain ⟨h4, rfl⟩ := h4
        have := h4.left
        exact H k2 h4.free (h4.mode.trans h2) (by omega) fun _ => by omega
    | false =>
      have hk : k.mode = ⟨.array :: (under m path i).frames, (under m path i).started, (under m path i).str⟩ := hk
      rw [hs'] at hk
      exact H k hm hk (Nat.le_refl _) nofun
  | optionalObjectMember name =>
    cases down with
    | true =>
      have hk : k.mode = under m path i := hk
      refine OK.bind (beginObject_ok hm (by rw [hk]; exact ha')) fun k1 _ d h1 => ?_
      obtain ⟨h1, h2, h3, rfl⟩ := h1
      rw [hk] at h2
      refine OK.bind (findMember_ok h1 h2 (by omega)) fun k2 x d h4 => ?_
      obtain ⟨⟨h4, h5, h6⟩, rfl⟩ := h4
      cases x with
      | true =>
        refine ok_pure ⟨.inl rfl, ⟨h4, ?_, .inl (by omega)⟩, fun _ => by omega, rfl⟩
        dsimp only
        rw [h5, hsucc, ← hs']
        rfl
      | false =>
        refine OK.bind (endObject_ok h4 hs' h5) fun k3 _ d h7 => ?_
        obtain ⟨h7, h8, h9, rfl⟩ := h7
        exact ok_pure ⟨.inr rfl, ⟨h7, h8, .inl (by omega)⟩, fun _ => by omega, rfl⟩
    | false =>
      have hk : k.mode = ⟨.objectName :: (under m path i).frames, (under m path i).started, false⟩ := by rw [← hs']; exact hk
      refine OK.bind (skipMembers_ok hm hk hl) fun k1 _ d h1 => ?_
      obtain ⟨h1, rfl⟩ := h1
      refine OK.bind (endObject_ok h1.free hs' (h1.mode.trans hk)) fun k3 _ d h7 => ?_
      obtain ⟨h7, h8, h9, rfl⟩ := h7
      have := h1.left
      exact ok_pure ⟨.inr rfl, ⟨h7, h8, .inl (by omega)⟩, nofun, rfl⟩
  | allObjectMembers allowEmpty =>
    have H : ∀ k1 : Know, k1.Free → k1.mode = ⟨.objectName :: (under m path i).frames, (under m path i).started, false⟩ → k1.left ≤ k.left →
        OK (rules multi) (boolCall .hasNext >>= fun x => if x then unitCall .skipName >>= fun _ => pure (i + 1, true) else unitCall .endObject >>= fun _ => pure (i, false) : X V (Nat × Bool)) none k1 fun k' a d =>
          (a = (i + 1, true) ∨ a = (i, false)) ∧ Pos m path k.left a.1 a.2 k' ∧ (down = true → k'.left < k.left) ∧ d = none := by
      intro k1 h1 h2 h3
      refine OK.bind (hasNext_ok h1 (by rw [h2]; rfl)) fun k2 x d h4 => ?_
      obtain ⟨h4, rfl, _⟩ := h4
      have := h4.left
      cases x with
      | true =>
        refine OK.bind (skipName_ok h4.free (h4.mode.trans h2)) fun k3 _ d h5 => ?_
        obtain ⟨h5, h6, h7, _, rfl⟩ := h5
        refine ok_pure ⟨.inl rfl, ⟨h5, ?_, .inl (by omega)⟩, fun _ => by omega, rfl⟩
        dsimp only
        rw [h6, hsucc, ← hs']
        rfl
      | false =>
        refine OK.bind (endObject_ok h4.free hs' (h4.mode.trans h2)) fun k3 _ d h5 => ?_
        obtain ⟨h5, h6, h7, rfl⟩ := h5
        exact ok_pure ⟨.inr rfl, ⟨h5, h6, .inl (by omega)⟩, fun _ => by omega, rfl⟩
    cases down with
    | true =>
      have hk : k.mode = under m path i := hk
      refine OK.bind (beginObject_ok hm (by rw [hk]; exact ha')) fun k1 _ d h1 => ?_
      obtain ⟨h1, h2, h3, rfl⟩ := h1
      rw [hk] at h2
      refine OK.bind (checkNotEmpty_ok h1 (by rw [h2]; rfl) (by rw [h2]; nofun) fun k' h he => ?_) fun k2 _ d h4 => ?_
      · refine OK.mono (skipName_ok h.free (h.mode.trans h2)) fun _ _ _ h => ?_
        rw [he] at h
        cases h.2.2.2.1
      · obtain ⟨h4, rfl⟩ := h4
        have := h4.left
        exact H k2 h4.free (h4.mode.trans h2) (by omega)
    | false =>
      have hk : k.mode = ⟨.objectName :: (under m path i).frames, (under m path i).started, (under m path i).str⟩ := hk
      rw [hs'] at hk
      exact H k hm hk (Nat.le_refl _)

theorem multiMatch_ok {path : List PartialPath} {f : V → X V (V × Bool)} {i : Nat} {v : V} (hf : ∀ m v, m.canValue multi = true → ValOk multi m F (f v)) (ha : m.canValue multi = true)
    (hi : i + 1 = path.length) (hm : k.Free) (hk : k.mode = under m path (i + 1)) (hl : 2 * k.left < F) (hl' : k.left < fuel) :
    OK (rules multi) (multiMatch fuel path f (i + 1) v) none k fun k' _ d => Behind k k' ∧ d = none := by
  have ha' := under_canValue (path := path) ha (i + 1)
  have hs' := canValue_str (under_canValue (path := path) ha i)
  rw [multiMatch]
  refine OK.bind (readValue_ok (hf _ v ha') ha' hm hk hl) fun k1 v1 d h1 => ?_
  obtain ⟨h1, rfl⟩ := h1
  have hlen : i < path.length := by omega
  have hp : path[i]? = some path[i] := List.getElem?_eq_getElem hlen
  rw [Nat.add_sub_cancel, hp]
  rw [under_succ hp] at hk
  have hm1 := h1.mode
  have := h1.left
  cases hpi : path[i] with
  | jsonPath _ => exact ok_pure ⟨h1, rfl⟩
  | optionalObjectMember _ => exact ok_pure ⟨h1, rfl⟩
  | allArrayItems _ =>
    rw [hk, hpi] at hm1
    have hm2 : k1.mode = ⟨.array :: (under m path i).frames, (under m path i).started, false⟩ := by rw [hm1, ← hs']; rfl
    refine OK.mono (itemsLoop_ok (fun v => hf _ v rfl) h1.free hm2 (by omega) (by omega)) fun k' _ d h => ⟨⟨h.1.free, h.1.mode.trans h1.mode, ?_⟩, h.2⟩
    have := h.1.left
    omega
  | allObjectMembers _ =>
    rw [hk, hpi] at hm1
    have hm2 : k1.mode = ⟨.objectName :: (under m path i).frames, (under m path i).started, false⟩ := by rw [hm1, ← hs']; rfl
    refine OK.mono (membersLoop_ok (fun v => hf _ v rfl) h1.free hm2 (by omega) (by omega)) fun k' _ d h => ⟨⟨h.1.free, h.1.mode.trans h1.mode, ?_⟩, h.2⟩
    have := h.1.left
    omega

theorem multiLoop_ok {path : List PartialPath} {f : V → X V (V × Bool)} (hf : ∀ m v, m.canValue multi = true → ValOk multi m F (f v)) (ha : m.canValue multi = true)
    (hne : .jsonPath [] ∉ path) : ∀ {n i : Nat} {down hasMatch : Bool} {v : V} {k : Know}, i < path.length → k.Free → (k.mode = if down then under m path i else (under m path (i + 1)).valueDone) →
      2 * k.left + (if down then 0 else 1) < n → 2 * k.left < F → k.left < fuel →
    OK (rules multi) (multiLoop fuel path f n i down hasMatch v) none k fun k' _ d => (k'.Free ∧ k'.mode = m.valueDone ∧ k'.left ≤ k.left ∧ (down = true → k'.left < k.left)) ∧ d = none := by
  intro n
  induction n with
  | zero => intro i down hasMatch v k _ _ _ h; omega
  | succ n ih =>
    intro i down hasMatch v k hi hm hk hn hF hfu
    have hp : path[i]? = some path[i] := List.getElem?_eq_getElem hi
    rw [multiLoop, hp]
    refine OK.bind (multiPiece_ok hm ha hp hne hk hfu) fun k1 a d h1 => ?_
    obtain ⟨i1, down1⟩ := a
    obtain ⟨h1, ⟨h2, h3, h4⟩, h5, rfl⟩ := h1
    dsimp only at h2 h3 h4 h5
    rcases h1 with h1 | h1 <;> cases h1
    · have hle : k1.left ≤ k.left := by rcases h4 with h | h <;> omega
      by_cases hlen : i + 1 ≥ path.length
      · have e : (true && decide (i + 1 ≥ path.length)) = true := by simp [hlen]
        dsimp only
        rw [if_pos e]
        refine OK.bind (multiMatch_ok hf ha (by omega) h2 h3 (by omega) (by omega)) fun k2 v2 d h6 => ?_
        obtain ⟨h6, rfl⟩ := h6
        have := h6.left
        show OK (rules multi) (multiLoop fuel path f n i false true v2) none k2 _
        refine OK.mono (ih (k := k2) hi h6.free (by rw [h6.mode, h3]; rfl) ?_ (by omega) (by omega)) fun k' _ d h => ⟨⟨h.1.1, h.1.2.1, ?_, fun hd => ?_⟩, h.2⟩
        · cases down <;> simp at hn ⊢ <;> omega
        · have := h.1.2.2.1; omega
        · have := h.1.2.2.1; omega
      · have e : (true && decide (i + 1 ≥ path.length)) = false := by simp [hlen]
        dsimp only
        rw [if_neg (by rw [e]; nofun)]
        show OK (rules multi) (multiLoop fuel path f n (i + 1) true hasMatch v) none k1 _
        refine OK.mono (ih (k := k1) (by omega) h2 h3 ?_ (by omega) (by omega)) fun k' _ d h => ⟨⟨h.1.1, h.1.2.1, ?_, fun hd => ?_⟩, h.2⟩
        · cases down with
          | true => have := h5 rfl; simp at hn ⊢; omega
          | false => simp at hn ⊢; omega
        · have := h.1.2.2.1; omega
        · have := h.1.2.2.1; have := h5 hd; omega
    · have hlt : k1.left < k.left := by
        rcases h4 with h | h
        · exact h
        · cases h.1
      cases i with
      | zero =>
        exact ok_pure ⟨⟨h2, h3, by omega, fun _ => hlt⟩, rfl⟩
      | succ i =>
        show OK (rules multi) (multiLoop fuel path f n i false hasMatch v) none k1 _
        refine OK.mono (ih (k := k1) (by omega) h2 h3 ?_ (by omega) (by omega)) fun k' _ d h => ⟨⟨h.1.1, h.1.2.1, ?_, fun hd => ?_⟩, h.2⟩
        · cases down <;> simp at hn ⊢ <;> omega
        · have := h.1.2.2.1; omega
        · have := h.1.2.2.1; omega

theorem currentPosition_ok {x : Bool} (hm : k.Free) : OK (rules multi) (currentPosition x : X V (Option Position)) none k fun k' _ d => Kept k k' ∧ d = none := by
  refine ⟨⟨hm, rfl⟩, fun r => ⟨nofun, fun _ k' hk => ?_⟩⟩
  obtain ⟨o, rfl, h⟩ := hk
  have hk : Kept k k' := ⟨h.free nofun, h.mode, h.left⟩
  cases o <;> exact ⟨hk, rfl⟩

theorem convertPath_ne {path : List MultiPiece} (h : path ≠ []) : 0 < (convertPath path).length := by
  cases hc : convertPath path with
  | cons _ _ => exact Nat.succ_pos _
  | nil =>
    have := convertLoop_plen path none
    unfold convertPath at hc
    rw [hc] at this
    cases path with
    | nil => exact absurd rfl h
    | cons _ _ => simp at this

theorem readSeekedMulti_ok {path : List MultiPiece} {f : V → X V (V × Bool)} {atLeastOne : Bool} {v : V} (hf : ∀ m v, m.canValue multi = true → ValOk multi m fuel (f v)) (ha : k.mode.canValue multi = true)
    (hm : k.Free) (hl : 2 * k.left < fuel) : OK (rules multi) (readSeekedMulti fuel path atLeastOne f v) none k fun k' _ d => Behind k k' ∧ d = none := by
  rw [readSeekedMulti]
  split
  · exact readValue_ok (hf _ v ha) ha hm rfl hl
  rename_i hp
  have H : ∀ (loc : Option Position) (k1 : Know), Kept k k1 → OK (rules multi) (multiLoop fuel (convertPath path) f fuel 0 true false v >>= fun x =>
      match x with
      | (v, hasMatch) => if (atLeastOne && !hasMatch) = true then storeNoMatch loc >>= fun _ => CT.fail (.noMatch loc) else pure v) none k1 fun k' _ d => Behind k k' ∧ d = none := by
    intro loc k1 h1
    have := h1.left
    refine OK.bind (multiLoop_ok (m := k.mode) hf ha (convertLoop_sections path none nofun) (convertPath_ne (by rintro rfl; exact hp rfl)) h1.free h1.mode (by simp; omega) (by omega) (by omega)) fun k2 a d h2 => ?_
    obtain ⟨v2, has⟩ := a
    obtain ⟨⟨h2, h3, h4, h5⟩, rfl⟩ := h2
    have := h5 rfl
    dsimp only
    split
    · trivial
    · exact ok_pure ⟨⟨h2, h3, by omega⟩, rfl⟩
  cases atLeastOne with
  | true =>
    refine OK.bind (currentPosition_ok hm) fun k1 loc d h1 => ?_
    obtain ⟨h1, rfl⟩ := h1
    exact H loc k1 h1
  | false => exact H none k ⟨hm, rfl, Nat.le_refl _⟩

/-! ## The API -/

mutual
theorem value_ok (fuel : Nat) : (o : ValOp V) → Stops o → ∀ {k : Know}, k.Free → k.mode.canValue multi = true → 2 * k.left < fuel → OK (rules multi) (value fuel o) none k fun k' _ d => Behind k k' ∧ d = none
  | .null, _, k, hm, ha, hl => by
    rw [value]
    exact OK.bind (unit_behind rfl hm ha) fun _ _ _ h => ok_pure h
  | .bool, _, k, hm, ha, hl => by
    rw [value]
    exact OK.bind (bool_behind rfl hm ha) fun _ _ _ h => ok_pure h
  | .str f, _, k, hm, ha, hl => by
    rw [value]
    exact OK.bind (text_behind rfl hm ha) fun _ _ _ h => OK.bind (ok_ofExcept fun _ _ => h) fun _ _ _ h => ok_pure h
  | .string, _, k, hm, ha, hl => by
    rw [value]
    exact OK.bind (text_behind rfl hm ha) fun _ _ _ h => ok_pure h
  | .stringReader f, hf, k, hm, ha, hl => by
    rw [Stops] at hf
    rw [value]
    exact OK.bind (readString_ok hf hm ha hl) fun _ _ _ h => ok_pure h
  | .number, _, k, hm, ha, hl => by
    rw [value]
    exact OK.bind (text_behind rfl hm ha) fun _ _ _ h => ok_pure h
  | .numberString, _, k, hm, ha, hl => by
    rw [value]
    exact OK.bind (text_behind rfl hm ha) fun _ _ _ h => ok_pure h
  | .deserialize d, hd, k, hm, ha, hl => by
    rw [Stops] at hd
    rw [value]
    refine OK.bind (Q := fun k' _ d => Behind k k' ∧ d = none) (useDelegate_ok ⟨hm, ha, hd⟩ ?_ ?_) fun _ _ _ h => ok_pure h
    · intro r hr
      cases r with
      | ok x => cases hr
      | error x => exact ⟨_, rfl⟩
    · rintro r k' ⟨v, rfl, h⟩ a -
      exact ⟨h, rfl⟩
  | .skip, _, k, hm, ha, hl => by
    rw [value]
    exact OK.bind (unit_behind rfl hm ha) fun _ _ _ h => ok_pure h
  | .array f, hf, k, hm, ha, hl => by
    rw [Stops] at hf
    rw [value]
    refine OK.bind (beginArray_ok hm ha) fun k1 _ d h1 => ?_
    obtain ⟨h1, h2, h3, rfl⟩ := h1
    refine OK.bind (arrC_ok fuel f hf h1 h2 (by omega)) fun k2 _ d h4 => ?_
    obtain ⟨h4, rfl⟩ := h4
    refine OK.bind (endArray_ok h4.free (canValue_str ha) (h4.mode.trans h2)) fun k3 _ d h5 => ?_
    obtain ⟨h5, h6, h7, rfl⟩ := h5
    have := h4.left
    exact ok_pure ⟨⟨h5, h6, by omega⟩, rfl⟩
  | .arrayItems init f, hf, k, hm, ha, hl => by
    rw [Stops] at hf
    rw [value]
    refine OK.bind (beginArray_ok hm ha) fun k1 _ d h1 => ?_
    obtain ⟨h1, h2, h3, rfl⟩ := h1
    refine OK.bind (itemsLoop_ok (fun v => valC_ok fuel (f v) (hf v) _ rfl) h1 h2 (by omega) (by omega)) fun k2 _ d h4 => ?_
    obtain ⟨h4, rfl⟩ := h4
    refine OK.bind (endArray_ok h4.free (canValue_str ha) (h4.mode.trans h2)) fun k3 _ d h5 => ?_
    obtain ⟨h5, h6, h7, rfl⟩ := h5
    have := h4.left
    exact ok_pure ⟨⟨h5, h6, by omega⟩, rfl⟩
  | .objectBorrowed init f, hf, k, hm, ha, hl => by
    rw [Stops] at hf
    rw [value]
    refine OK.bind (beginObject_ok hm ha) fun k1 _ d h1 => ?_
    obtain ⟨h1, h2, h3, rfl⟩ := h1
    refine OK.bind (borrowedLoop_ok (fun v => memC_ok fuel (f v) (hf v) _ _ _) h1 h2 (by omega) (by omega)) fun k2 _ d h4 => ?_
    obtain ⟨h4, rfl⟩ := h4
    refine OK.bind (endObject_ok h4.free (canValue_str ha) (h4.mode.trans h2)) fun k3 _ d h5 => ?_
    obtain ⟨h5, h6, h7, rfl⟩ := h5
    have := h4.left
    exact ok_pure ⟨⟨h5, h6, by omega⟩, rfl⟩
  | .objectOwned init f, hf, k, hm, ha, hl => by
    rw [Stops] at hf
    rw [value]
    refine OK.bind (beginObject_ok hm ha) fun k1 _ d h1 => ?_
    obtain ⟨h1, h2, h3, rfl⟩ := h1
    refine OK.bind (ownedLoop_ok (fun v n => valC_ok fuel (f v n) (hf v n) _ rfl) h1 h2 (by omega) (by omega)) fun k2 _ d h4 => ?_
    obtain ⟨h4, rfl⟩ := h4
    refine OK.bind (endObject_ok h4.free (canValue_str ha) (h4.mode.trans h2)) fun k3 _ d h5 => ?_
    obtain ⟨h5, h6, h7, rfl⟩ := h5
    have := h4.left
    exact ok_pure ⟨⟨h5, h6, by omega⟩, rfl⟩
  | .seeked path f, hf, k, hm, ha, hl => by
    rw [Stops] at hf
    rw [value]
    refine OK.bind (seekTo_ok hm ha) fun k1 _ d h1 => ?_
    obtain ⟨⟨h1, h2, h3, _⟩, rfl⟩ := h1
    have ha1 : k1.mode.canValue multi = true := by rw [h2]; exact canValue_push ha (pieces_ne _)
    refine OK.bind (readValue_ok (valC_ok fuel f hf _ ha1) ha1 h1 rfl (by omega)) fun k2 _ d h4 => ?_
    obtain ⟨h4, rfl⟩ := h4
    refine OK.bind (seekBack_ok (canValue_str ha) h4.free (by rw [h4.mode, h2])) fun k3 _ d h5 => ?_
    obtain ⟨⟨h5, h6, h7, _⟩, rfl⟩ := h5
    have := h4.left
    exact ok_pure ⟨⟨h5, h6, by omega⟩, rfl⟩
  | .seekedMulti path atLeastOne init f, hf, k, hm, ha, hl => by
    rw [Stops] at hf
    rw [value]
    exact OK.bind (readSeekedMulti_ok (fun m v ha => valC_ok fuel (f v) (hf v) m ha) ha hm hl) fun _ _ _ h => ok_pure h

theorem arrC_ok (fuel : Nat) : (c : ArrC V) → StopsArr c → ∀ {fs : List Frame} {st : Bool} {k : Know}, k.Free → k.mode = ⟨.array :: fs, st, false⟩ → 2 * k.left < fuel →
    OK (rules multi) (arrC fuel c) none k fun k' _ d => Kept k k' ∧ d = none
  | .ret r, _, fs, st, k, hm, hk, hl => by
    rw [arrC]
    exact ok_ofExcept fun _ _ => ⟨⟨hm, rfl, Nat.le_refl _⟩, rfl⟩
  | .hasNext f, hf, fs, st, k, hm, hk, hl => by
    rw [StopsArr] at hf
    rw [arrC]
    refine OK.attempt (hasNext_ok hm (by rw [hk]; rfl)) (fun k1 x d h1 => ?_) fun e d => ?_
    · obtain ⟨h1, rfl, _⟩ := h1
      have := h1.left
      exact OK.mono (arrC_ok fuel (f (.ok x)) (hf.1 x) h1.free (h1.mode.trans hk) (by omega)) fun _ _ _ h => ⟨h1.trans h.1, h.2⟩
    · obtain ⟨e', he⟩ := hf.2 e
      dsimp only
      rw [he, arrC]
      trivial
  | .peek f, hf, fs, st, k, hm, hk, hl => by
    rw [StopsArr] at hf
    rw [arrC]
    refine OK.attempt (peek_ok hm (by rw [hk]; rfl)) (fun k1 x d h1 => ?_) fun e d => ?_
    · obtain ⟨h1, rfl, _⟩ := h1
      have := h1.left
      exact OK.mono (arrC_ok fuel (f (.ok x)) (hf.1 x) h1.free (h1.mode.trans hk) (by omega)) fun _ _ _ h => ⟨h1.trans h.1, h.2⟩
    · obtain ⟨e', he⟩ := hf.2 e
      dsimp only
      rw [he, arrC]
      trivial
  | .op o f, hf, fs, st, k, hm, hk, hl => by
    rw [StopsArr] at hf
    rw [arrC]
    refine OK.attempt (value_ok fuel o hf.1 hm (by rw [hk]; rfl) hl) (fun k1 x d h1 => ?_) fun e d => ?_
    · obtain ⟨h1, rfl⟩ := h1
      have := h1.left
      have hk1 : k1.mode = k.mode := by rw [h1.mode, hk]; rfl
      exact OK.mono (arrC_ok fuel (f (.ok x)) (hf.2.1 x) h1.free (hk1.trans hk) (by omega)) fun _ _ _ h => ⟨Kept.trans ⟨h1.free, hk1, by omega⟩ h.1, h.2⟩
    · obtain ⟨e', he⟩ := hf.2.2 e
      dsimp only
      rw [he, arrC]
      trivial

theorem valC_ok (fuel : Nat) : (c : ValC V) → StopsVal c → ∀ (m : Mode), m.canValue multi = true → ValOk multi m fuel (valC fuel c)
  | .ret r, _, m, ha, k, hm, hk, hl => by
    rw [valC]
    exact OK.bind (ok_ofExcept (Q := fun k' _ d => Kept k k' ∧ d = none) fun _ _ => ⟨⟨hm, rfl, Nat.le_refl _⟩, rfl⟩) fun _ _ _ h => ok_pure h
  | .peek f, hf, m, ha, k, hm, hk, hl => by
    rw [StopsVal] at hf
    rw [valC]
    refine OK.attempt (peek_ok hm (by rw [hk]; exact ha)) (fun k1 x d h1 => ?_) fun e d => ?_
    · obtain ⟨h1, rfl, _⟩ := h1
      have := h1.left
      refine OK.mono (valC_ok fuel (f (.ok x)) (hf.1 x) m ha k1 h1.free (h1.mode.trans hk) (by omega)) fun _ a _ h => ⟨?_, h.2⟩
      obtain ⟨v, c⟩ := a
      cases c with
      | true => exact h1.behind h.1
      | false => exact h1.trans h.1
    · obtain ⟨e', he⟩ := hf.2 e
      dsimp only
      rw [he, valC]
      trivial
  | .op o f, hf, m, ha, k, hm, hk, hl => by
    rw [StopsVal] at hf
    rw [valC]
    refine OK.attempt (value_ok fuel o hf.1 hm (by rw [hk]; exact ha) hl) (fun k1 x d h1 => ?_) fun e d => ?_
    · exact OK.bind (ok_ofExcept fun _ _ => h1) fun _ _ _ h => ok_pure h
    · obtain ⟨e', he⟩ := hf.2 e
      dsimp only
      rw [he]
      trivial

theorem memC_ok (fuel : Nat) : (c : MemC V) → StopsMem c → ∀ (fs : List Frame) (st : Bool) (cn : Bool), MemOk multi fs st fuel cn (memC fuel cn c)
  | .ret r, _, fs, st, cn, k, hm, hk, hl => by
    rw [memC]
    exact OK.bind (ok_ofExcept (Q := fun k' _ d => k' = k ∧ d = none) fun _ _ => ⟨rfl, rfl⟩) fun _ _ _ h => by
      obtain ⟨rfl, rfl⟩ := h
      exact ok_pure ⟨⟨hm, hk, nofun, Nat.le_refl _⟩, rfl⟩
  | .readName f, hf, fs, st, cn, k, hm, hk, hl => by
    rw [StopsMem] at hf
    rw [memC]
    cases cn with
    | true => exact ok_panic (.inl rfl)
    | false =>
      refine OK.attempt (nextName_ok (.inl rfl) hm hk) (fun k1 x d h1 => ?_) fun e d => ?_
      · obtain ⟨⟨h1, h2, h3⟩, rfl⟩ := h1
        refine OK.mono (memC_ok fuel (f (.ok x)) (hf.1 x) fs st true k1 h1 h2 (by omega)) fun _ a _ h => ⟨⟨h.1.1, h.1.2.1, fun hc => ⟨(h.1.2.2.1 hc).1, ?_⟩, ?_⟩, h.2⟩
        · have := (h.1.2.2.1 hc).2; omega
        · have := h.1.2.2.2; omega
      · obtain ⟨e', he⟩ := hf.2 e
        dsimp only
        rw [he, memC]
        trivial
  | .peek f, hf, fs, st, cn, k, hm, hk, hl => by
    rw [StopsMem] at hf
    rw [memC]
    refine OK.attempt (Q := fun (k' : Know) _ d => (k'.Free ∧ k'.mode = ⟨.objectValue :: fs, st, false⟩ ∧ k'.left ≤ k.left) ∧ d = none) (OK.bind (checkSkipName_ok hm hk) fun k1 _ d h1 => ?_)
      (fun k1 x d h1 => ?_) fun e d => ?_
    · obtain ⟨⟨h1, h2, h3⟩, rfl⟩ := h1
      refine OK.mono (peek_ok h1 (by rw [h2]; rfl)) fun k2 _ d h4 => ⟨⟨h4.1.free, h4.1.mode.trans h2, ?_⟩, h4.2.1⟩
      have := h4.1.left
      omega
    · obtain ⟨⟨h1, h2, h3⟩, rfl⟩ := h1
      refine OK.mono (memC_ok fuel (f (.ok x)) (hf.1 x) fs st true k1 h1 h2 (by omega)) fun _ a _ h => ⟨⟨h.1.1, h.1.2.1, fun hc => ⟨(h.1.2.2.1 hc).1, ?_⟩, ?_⟩, h.2⟩
      · have := (h.1.2.2.1 hc).2; omega
      · have := h.1.2.2.2; omega
    · obtain ⟨e', he⟩ := hf.2 e
      dsimp only
      rw [he, memC]
      trivial
  | .op o f, hf, fs, st, cn, k, hm, hk, hl => by
    rw [StopsMem] at hf
    rw [memC]
    refine OK.attempt (checkSkipName_ok hm hk) (fun k1 _ d h1 => ?_) fun e d => ?_
    · obtain ⟨⟨h1, h2, h3⟩, rfl⟩ := h1
      refine OK.attempt (value_ok fuel o hf.1 h1 (by rw [h2]; rfl) (by omega)) (fun k2 x d h4 => ?_) fun e d => ?_
      · refine OK.bind (Q := fun k' _ d => Behind k1 k' ∧ d = none) (ok_ofExcept fun _ _ => h4) fun k3 _ _ h => ok_pure ?_
        obtain ⟨h, rfl⟩ := h
        have := h.left
        refine ⟨⟨h.free, ?_, fun _ => ⟨rfl, by omega⟩, by omega⟩, rfl⟩
        rw [h.mode, h2]
        rfl
      · obtain ⟨e', he⟩ := hf.2 e
        dsimp only
        rw [he]
        trivial
    · obtain ⟨e', he⟩ := hf.2 e
      dsimp only
      rw [he]
      trivial
end

theorem valueDone_started {m : Mode} (h : m.valueDone.frames = []) : m.valueDone.started = true := by
  obtain ⟨fs, st, s⟩ := m
  cases fs with
  | nil => rfl
  | cons f fs => cases f <;> cases h

theorem valueDone_str (m : Mode) : m.valueDone.str = m.str := by
  obtain ⟨fs, st, s⟩ := m
  cases fs with
  | nil => rfl
  | cons f fs => cases f <;> rfl

theorem trailing_ok (hm : k.Free) (hs : k.mode.str = false) (hf : k.mode.frames = []) (hst : k.mode.started = true) :
    OK (rules multi) (consumeTrailingWhitespace : X V Unit) none k fun k' _ _ => k'.gone = true := by
  refine ⟨⟨hm, ?_⟩, fun r => ⟨fun hr => ?_, fun _ k' hk => ?_⟩⟩
  · unfold Mode.allowed
    rw [hs, hf, hst]
    rfl
  · cases r with
    | ok o => cases hr
    | error e => trivial
  · obtain ⟨o, rfl, h⟩ := hk
    exact h.consumed rfl

theorem readTop_ok {seeked : Bool} {o : ValOp V} (ho : Stops o) (hm : k.Free) (ha : k.mode.canValue multi = true) (hk : seeked = true ∨ k.mode.frames = []) (hl : 2 * k.left < fuel) :
    OK (rules multi) (readTop fuel seeked o) none k fun k' _ _ => k'.gone = true := by
  rw [readTop]
  refine OK.bind (value_ok fuel o ho hm ha hl) fun k1 _ d h1 => ?_
  obtain ⟨h1, rfl⟩ := h1
  have hs : k1.mode.str = false := by rw [h1.mode, valueDone_str, canValue_str ha]
  refine OK.bind (Q := fun k' _ _ => k'.gone = true) ?_ fun _ _ _ h => ok_pure h
  have hst : k1.mode.frames = [] → k1.mode.started = true := by rw [h1.mode]; exact valueDone_started
  cases seeked with
  | true =>
    refine OK.bind (Q := fun (k' : Know) _ d => (k'.Free ∧ k'.mode.str = false ∧ k'.mode.frames = [] ∧ k'.mode.started = true) ∧ d = none) (unitCall_ok h1.free ?_ fun o k' h => ⟨⟨h.free nofun, ?_⟩, rfl⟩) fun k2 _ d h2 => ?_
    · unfold Mode.allowed
      rw [hs]
      rfl
    · rw [h.mode]
      unfold Mode.next
      dsimp only
      split
      · rename_i hf
        have hf := List.isEmpty_iff.mp hf
        exact ⟨hs, hf, hst hf⟩
      · exact ⟨hs, rfl, rfl⟩
    · obtain ⟨⟨h2, h3, h4, h5⟩, rfl⟩ := h2
      exact trailing_ok h2 h3 h4 h5
  | false =>
    have hf : k1.mode.frames = [] := by
      rw [h1.mode]
      have hk := hk.resolve_left nofun
      unfold Mode.valueDone
      rw [hk]
    exact trailing_ok h1.free hs hf (hst hf)

theorem topC_ok (fuel : Nat) : (c : TopC V) → StopsTop c → ∀ {seeked : Bool} {k : Know}, k.Free → k.mode.canValue multi = true → (seeked = true ∨ k.mode.frames = []) → 2 * k.left < fuel →
    OK (rules multi) (topC fuel seeked c) none k fun k' _ _ => ReadsTop c → k'.gone = true
  | .ret r, _, seeked, k, hm, ha, hk, hl => by
    rw [topC]
    refine ok_ofExcept fun a hr h => ?_
    rw [ReadsTop, hr] at h
    cases h
  | .seekTo path f, hf, seeked, k, hm, ha, hk, hl => by
    rw [StopsTop] at hf
    rw [topC]
    refine OK.attempt (seekTo_ok hm ha) (fun k1 x d h1 => ?_) fun e d => ?_
    · obtain ⟨⟨h1, h2, h3, _⟩, rfl⟩ := h1
      refine OK.mono (topC_ok fuel (f (.ok x)) (hf.1 x) h1 (by rw [h2]; exact canValue_push ha (pieces_ne _)) (.inl rfl) (by omega)) fun _ _ _ h hr => h ?_
      rw [ReadsTop] at hr
      exact hr _
    · obtain ⟨e', he⟩ := hf.2 e
      dsimp only
      rw [he, topC]
      trivial
  | .peek f, hf, seeked, k, hm, ha, hk, hl => by
    rw [StopsTop] at hf
    rw [topC]
    refine OK.attempt (peek_ok hm ha) (fun k1 x d h1 => ?_) fun e d => ?_
    · obtain ⟨h1, rfl, _⟩ := h1
      have := h1.left
      refine OK.mono (topC_ok fuel (f (.ok x)) (hf.1 x) h1.free (by rw [h1.mode]; exact ha) (by rw [h1.mode]; exact hk) (by omega)) fun _ _ _ h hr => h ?_
      rw [ReadsTop] at hr
      exact hr _
    · obtain ⟨e', he⟩ := hf.2 e
      dsimp only
      rw [he, topC]
      trivial
  | .op o f, hf, seeked, k, hm, ha, hk, hl => by
    rw [StopsTop] at hf
    rw [topC]
    refine OK.attempt (readTop_ok hf.1 hm ha hk hl) (fun k1 x d h1 => ok_ofExcept fun _ _ _ => h1) fun e d => ?_
    obtain ⟨e', he⟩ := hf.2 e
    dsimp only
    rw [he]
    trivial

end Verif.SimpleReader.Arb
