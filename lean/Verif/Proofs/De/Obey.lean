import Verif.Proofs.Obey
import Verif.Proofs.Abs.Progress
import Verif.Spec.Orderly
/-! # The deserializer follows the usage rules of the reader -/

namespace Verif.De.Arb
open Reader Usage Obey DeSpec

/-- What is known about the reader: the mode, and the number of remaining bytes -/
structure Know where
  mode : Mode
  left : Nat

/-- The usage rules of the reader; `b`: the remaining bytes are considered -/
def rules (multi : Bool) (b : Prop) : Rules Op OpRes Know where
  may k op := k.mode.allowed multi op = true ∧ op ≠ .consumeTrailingWhitespace
  step k op r k' := ∃ o, r = .ok o ∧ k'.mode = k.mode.next o op ∧ (b → k'.left ≤ k.left ∧ (Abs.reads op = true → k'.left < k.left))
  failed _ r := match r with
    | .ok _ => false
    | .error _ => true
  bad := DeSpec.Misused

variable {α β V : Type} {multi : Bool} {b : Prop} {n : Nat} {k k' k'' : Know} {max : Nat}

/-- the value has been consumed -/
def Behind (b : Prop) (k k' : Know) : Prop := k'.mode = k.mode.valueDone ∧ (b → k'.left < k.left)
/-- the mode is the same -/
def Kept (b : Prop) (k k' : Know) : Prop := k'.mode = k.mode ∧ (b → k'.left ≤ k.left)

theorem Kept.refl : Kept b k k := ⟨rfl, fun _ => Nat.le_refl _⟩
theorem Kept.trans (h : Kept b k k') (h' : Kept b k' k'') : Kept b k k'' := ⟨h'.1.trans h.1, fun hb => Nat.le_trans (h'.2 hb) (h.2 hb)⟩
theorem Kept.behind (h : Kept b k k') (h' : Behind b k' k'') : Behind b k k'' := ⟨h'.1.trans (congrArg _ h.1), fun hb => Nat.lt_of_lt_of_le (h'.2 hb) (h.2 hb)⟩

theorem onReader_ok {op : Op} {Q : Know → Out → Nat → Prop} (ha : k.mode.allowed multi op = true) (hc : op ≠ .consumeTrailingWhitespace)
    (h : ∀ o k', k'.mode = k.mode.next o op → (b → k'.left ≤ k.left ∧ (Abs.reads op = true → k'.left < k.left)) → Q k' o n) : OK (rules multi b) (onReader op) n k Q := by
  refine ⟨⟨ha, hc⟩, fun r => ⟨fun hr => ?_, fun hr k' hk => ?_⟩⟩
  · cases r with
    | ok o => cases hr
    | error e => trivial
  · obtain ⟨o, rfl, h1, h2⟩ := hk
    exact h o k' h1 h2

/-- methods which consume a value -/
def consumes : Op → Bool
  | .nextString | .nextStr | .nextNumberAsStr | .nextNumberAsString | .nextBool | .nextNull | .skipValue => true
  | _ => false

section
variable {op : Op}

theorem unitCall_ok {Q : Know → Unit → Nat → Prop} (ha : k.mode.allowed multi op = true) (hc : op ≠ .consumeTrailingWhitespace)
    (h : ∀ o k', k'.mode = k.mode.next o op → (b → k'.left ≤ k.left ∧ (Abs.reads op = true → k'.left < k.left)) → Q k' () n) : OK (rules multi b) (unitCall op) n k Q :=
  OK.bind (onReader_ok (Q := fun k' _ d => Q k' () d) ha hc h) <| fun _ _ _ h => ok_pure h

theorem boolCall_ok {Q : Know → Bool → Nat → Prop} (ha : k.mode.allowed multi op = true) (hc : op ≠ .consumeTrailingWhitespace)
    (h : ∀ o x k', k'.mode = k.mode.next o op → (b → k'.left ≤ k.left ∧ (Abs.reads op = true → k'.left < k.left)) → Q k' x n) : OK (rules multi b) (boolCall op) n k Q := by
  refine OK.bind (onReader_ok (Q := fun k' _ d => ∀ x, Q k' x d) ha hc fun o k' h1 h2 x => h o x k' h1 h2) <| fun k' o d h => ?_
  cases o <;> first | exact ok_pure (h _) | exact ok_fail

theorem textCall_ok {Q : Know → Text → Nat → Prop} (ha : k.mode.allowed multi op = true) (hc : op ≠ .consumeTrailingWhitespace)
    (h : ∀ o x k', k'.mode = k.mode.next o op → (b → k'.left ≤ k.left ∧ (Abs.reads op = true → k'.left < k.left)) → Q k' x n) : OK (rules multi b) (textCall op) n k Q := by
  refine OK.bind (onReader_ok (Q := fun k' _ d => ∀ x, Q k' x d) ha hc fun o k' h1 h2 x => h o x k' h1 h2) <| fun k' o d h => ?_
  cases o <;> first | exact ok_pure (h _) | exact ok_fail

theorem peek_ok (ha : k.mode.canValue multi = true) : OK (rules multi b) peek n k fun k' _ _ => Kept b k k' := by
  refine OK.bind (onReader_ok (Q := fun k' _ _ => Kept b k k') ha nofun fun o k' h1 h2 => ⟨h1, fun hb => (h2 hb).1⟩) <| fun k' o d h => ?_
  cases o <;> first | exact ok_pure h | exact ok_fail

theorem consumes_behind (hc : consumes op = true) {o : Out} (h1 : k'.mode = k.mode.next o op) (h2 : b → k'.left ≤ k.left ∧ (Abs.reads op = true → k'.left < k.left)) : Behind b k k' := by
  cases op <;> first | exact ⟨h1, fun hb => (h2 hb).2 rfl⟩ | cases hc

theorem consumes_allowed (hc : consumes op = true) (ha : k.mode.canValue multi = true) : k.mode.allowed multi op = true := by
  cases op <;> first | exact ha | cases hc

theorem consumes_ne (hc : consumes op = true) : op ≠ .consumeTrailingWhitespace := by
  rintro rfl
  cases hc

/-- a simple value -/
theorem unit_behind (hc : consumes op = true) (ha : k.mode.canValue multi = true) : OK (rules multi b) (unitCall op) n k fun k' _ _ => Behind b k k' :=
  unitCall_ok (consumes_allowed hc ha) (consumes_ne hc) fun _ _ => consumes_behind hc
theorem bool_behind (hc : consumes op = true) (ha : k.mode.canValue multi = true) : OK (rules multi b) (boolCall op) n k fun k' _ _ => Behind b k k' :=
  boolCall_ok (consumes_allowed hc ha) (consumes_ne hc) fun _ _ _ => consumes_behind hc
theorem text_behind (hc : consumes op = true) (ha : k.mode.canValue multi = true) : OK (rules multi b) (textCall op) n k fun k' _ _ => Behind b k k' :=
  textCall_ok (consumes_allowed hc ha) (consumes_ne hc) fun _ _ _ => consumes_behind hc

end

theorem checkNesting_ok {body : D α} {Q : Know → α → Prop} (h : ∀ n, OK (rules multi b) body n k fun k' a _ => Q k' a) :
    OK (rules multi b) (checkNesting max body) n k fun k' a _ => Q k' a := by
  show OK (rules multi b) (if n ≥ max then CT.fail (DErr.maxNestingDepthExceeded max) else _) n k _
  split
  · exact ok_fail
  · show OK (rules multi b) (body >>= fun result => CT.modify (· - 1) >>= fun _ => pure result) (n + 1) k _
    exact OK.bind (h (n + 1)) <| fun _ _ _ h => h

/-- inside of an object; `expects`: a name has been read -/
def inMap (fs : List Frame) (started expects : Bool) : Mode := ⟨(if expects then .objectValue else .objectName) :: fs, started, false⟩

/-- What the methods of the visitor do -/
structure VisOk (multi : Bool) (b : Prop) (v : Visitor V) : Prop where
  some : ∀ k n, k.mode.canValue multi = true → OK (rules multi b) v.some n k fun k' _ _ => Behind b k k'
  newtype : ∀ k n, k.mode.canValue multi = true → OK (rules multi b) v.newtype n k fun k' _ _ => Behind b k k'
  seq : ∀ e l fs st k n, k.mode = ⟨.array :: fs, st, false⟩ → OK (rules multi b) (v.seq e l) n k fun k' _ _ => Kept b k k'
  map : ∀ e fs st k n, k.mode = inMap fs st e → OK (rules multi b) (v.map e) n k fun k' a _ => k'.mode = inMap fs st a.2 ∧ (b → k'.left ≤ k.left)
  enum : ∀ fs st k n, k.mode = inMap fs st false → OK (rules multi b) v.enum n k fun k' a _ => a.2 = true → k'.mode = inMap fs st false ∧ (b → k'.left ≤ k.left)
  unitEnum : ∀ k n, k.mode.canValue multi = true → OK (rules multi b) v.unitEnum n k fun k' a _ => a.2 = true → Behind b k k'

theorem canValue_str {m : Mode} (h : m.canValue multi = true) : m.str = false := by
  unfold Mode.canValue at h
  cases hs : m.str with
  | false => rfl
  | true => rw [hs] at h; cases h

theorem next_beginObject {m : Mode} (h : m.str = false) {o : Out} : m.next o .beginObject = inMap m.frames m.started false := by
  obtain ⟨f, s, t⟩ := m
  cases h
  rfl

section
variable {v : Visitor V} (hv : VisOk multi b v) (ha : k.mode.canValue multi = true)
include hv ha

theorem seqWithLength_ok {expected : Option Nat} : OK (rules multi b) (deserializeSeqWithLength max v expected) n k fun k' _ _ => Behind b k k' := by
  have hs := canValue_str ha
  refine checkNesting_ok (Q := fun k' _ => Behind b k k') fun n => ?_
  refine OK.bind (unitCall_ok (Q := fun k' _ _ => k'.mode = ⟨.array :: k.mode.frames, k.mode.started, false⟩ ∧ (b → k'.left < k.left)) (by exact ha) nofun fun o k' h1 h2 => ?_) <| fun k1 _ n1 h1 => ?_
  · refine ⟨h1.trans ?_, fun hb => (h2 hb).2 rfl⟩
    rw [← hs]
    rfl
  refine OK.bind (hv.seq expected 0 _ _ k1 n1 h1.1) <| fun k2 (result, len) n2 h2 => ?_
  have h3 : OK (rules multi b) (unitCall .endArray >>= fun _ => pure result : D V) n2 k2 fun k' _ _ => Behind b k k' := by
    refine OK.bind (unitCall_ok (Q := fun k' _ _ => Behind b k k') ?_ nofun fun o k' h3 h4 => ?_) <| fun _ _ _ h => ok_pure h
    · rw [h2.1, h1.1]
      rfl
    · refine ⟨h3.trans ?_, fun hb => Nat.lt_of_le_of_lt (h4 hb).1 (Nat.lt_of_le_of_lt (h2.2 hb) (h1.2 hb))⟩
      rw [h2.1, h1.1, ← hs]
      rfl
  cases expected with
  | none => exact h3
  | some e =>
    dsimp only
    by_cases hl : len < e
    · rw [if_pos hl]; exact ok_fail
    · rw [if_neg hl]; exact h3

theorem map_ok : OK (rules multi b) (deserializeMap max v) n k fun k' _ _ => Behind b k k' := by
  have hs := canValue_str ha
  refine checkNesting_ok (Q := fun k' _ => Behind b k k') fun n => ?_
  refine OK.bind (unitCall_ok (Q := fun k' _ _ => k'.mode = inMap k.mode.frames k.mode.started false ∧ (b → k'.left < k.left)) (by exact ha) nofun fun o k' h1 h2 => ?_) <| fun k1 _ n1 h1 => ?_
  · refine ⟨h1.trans ?_, fun hb => (h2 hb).2 rfl⟩
    exact next_beginObject hs
  refine OK.bind (hv.map false _ _ k1 n1 h1.1) <| fun k2 (result, expects) n2 h2 => ?_
  dsimp only at h2 ⊢
  cases expects with
  | true => exact ok_panic (.inr (.inr (.inl rfl)))
  | false =>
    refine OK.bind (unitCall_ok (Q := fun k' _ _ => Behind b k k') ?_ nofun fun o k' h3 h4 => ?_) <| fun _ _ _ h => ok_pure h
    · rw [h2.1]
      rfl
    · refine ⟨h3.trans ?_, fun hb => Nat.lt_of_le_of_lt (h4 hb).1 (Nat.lt_of_le_of_lt (h2.2 hb) (h1.2 hb))⟩
      rw [h2.1]
      unfold inMap
      rw [← hs]
      rfl

theorem enum_ok : OK (rules multi b) (deserializeEnum max v) n k fun k' _ _ => Behind b k k' := by
  refine OK.bind (peek_ok ha) <| fun k0 t n0 h0 => ?_
  have ha0 : k0.mode.canValue multi = true := by rw [h0.1]; exact ha
  have hs := canValue_str ha0
  cases t with
  | array => exact ok_fail
  | boolean => exact ok_fail
  | null => exact ok_fail
  | number => exact ok_fail
  | object =>
    refine OK.mono ?_ fun _ _ _ h => h0.behind h
    refine checkNesting_ok (Q := fun k' _ => Behind b k0 k') fun n => ?_
    refine OK.bind (unitCall_ok (Q := fun k' _ _ => k'.mode = inMap k0.mode.frames k0.mode.started false ∧ (b → k'.left < k0.left)) (by exact ha0) nofun fun o k' h1 h2 => ?_) <| fun k1 _ n1 h1 => ?_
    · refine ⟨h1.trans ?_, fun hb => (h2 hb).2 rfl⟩
      exact next_beginObject hs
    refine OK.bind (hv.enum _ _ k1 n1 h1.1) <| fun k2 (result, consumed) n2 h2 => ?_
    dsimp only at h2 ⊢
    cases consumed with
    | false => exact ok_panic (.inr (.inr (.inr rfl)))
    | true =>
      have h2 := h2 rfl
      refine OK.bind (unitCall_ok (Q := fun k' _ _ => Behind b k0 k') ?_ nofun fun o k' h3 h4 => ?_) <| fun _ _ _ h => ok_pure h
      · rw [h2.1]
        rfl
      · refine ⟨h3.trans ?_, fun hb => Nat.lt_of_le_of_lt (h4 hb).1 (Nat.lt_of_le_of_lt (h2.2 hb) (h1.2 hb))⟩
        rw [h2.1]
        unfold inMap
        rw [← hs]
        rfl
  | string =>
    refine OK.bind (hv.unitEnum k0 n0 ha0) <| fun k2 (result, consumed) n2 h2 => ?_
    dsimp only at h2 ⊢
    cases consumed with
    | false => exact ok_panic (.inr (.inr (.inr rfl)))
    | true => exact ok_pure (h0.behind (h2 rfl))

omit hv in
theorem string_ok : OK (rules multi b) (deserializeString v) n k fun k' _ _ => Behind b k k' :=
  OK.bind (text_behind rfl ha) <| fun _ _ _ h => ok_ofExcept fun _ _ => h
omit hv in
theorem str_ok : OK (rules multi b) (deserializeStr v) n k fun k' _ _ => Behind b k k' :=
  OK.bind (text_behind rfl ha) <| fun _ _ _ h => ok_ofExcept fun _ _ => h
omit hv in
theorem bool_ok : OK (rules multi b) (deserializeBool v) n k fun k' _ _ => Behind b k k' :=
  OK.bind (bool_behind rfl ha) <| fun _ _ _ h => ok_ofExcept fun _ _ => h
omit hv in
theorem unit_ok {p : Prim} : OK (rules multi b) (unitCall .nextNull >>= fun _ => CT.ofExcept (v.prim p) : D V) n k fun k' _ _ => Behind b k k' :=
  OK.bind (unit_behind rfl ha) <| fun _ _ _ h => ok_ofExcept fun _ _ => h

omit hv ha in
theorem visitNumber_ok {t : Text} {Q : Know → Prop} (h : Q k) : OK (rules multi b) (visitNumber v t) n k fun k' _ _ => Q k' := by
  have hx : ∀ r : Except DErr V, OK (rules multi b) (CT.ofExcept r : D V) n k fun k' _ _ => Q k' := fun r => ok_ofExcept fun _ _ => h
  unfold visitNumber
  split
  · exact hx _
  · split
    · split
      · exact hx _
      · split
        · exact hx _
        · exact ok_fail
    · split
      · exact hx _
      · split
        · exact hx _
        · exact ok_fail

theorem method_ok (m : Method) : OK (rules multi b) (method max m v) n k fun k' _ _ => Behind b k k' := by
  have hpeek : ∀ {f : ValueType → D V}, (∀ k0 t n0, k0.mode.canValue multi = true → OK (rules multi b) (f t) n0 k0 fun k' _ _ => Behind b k0 k') →
      OK (rules multi b) (peek >>= f) n k fun k' _ _ => Behind b k k' := fun hf =>
    OK.bind (peek_ok ha) <| fun k0 t n0 h0 => (hf k0 t n0 (by rw [h0.1]; exact ha)).mono fun _ _ _ h => h0.behind h
  cases m with
  | any =>
    refine hpeek fun k0 t n0 ha0 => ?_
    cases t with
    | array => exact seqWithLength_ok hv ha0
    | object => exact map_ok hv ha0
    | string => exact string_ok ha0
    | boolean => exact bool_ok ha0
    | null => exact unit_ok ha0
    | number => exact OK.bind (text_behind rfl ha0) <| fun _ _ _ h => visitNumber_ok h
  | bool => exact bool_ok ha
  | int ty =>
    have h1 : OK (rules multi b) (nextInt ty) n k fun k' _ _ => Behind b k k' := by
      refine OK.bind (text_behind rfl ha) <| fun _ t _ h => ?_
      cases parseInt ty t with
      | none => exact ok_fail
      | some i => exact ok_pure h
    exact h1.bind fun _ _ _ h => ok_ofExcept fun _ _ => h
  | f32 => exact OK.bind (text_behind rfl ha) <| fun _ _ _ h => ok_ofExcept fun _ _ => h
  | f64 => exact OK.bind (text_behind rfl ha) <| fun _ _ _ h => ok_ofExcept fun _ _ => h
  | char => exact str_ok ha
  | str => exact str_ok ha
  | string => exact string_ok ha
  | bytes =>
    refine hpeek fun k0 t n0 ha0 => ?_
    cases t with
    | string => exact OK.bind (text_behind rfl ha0) <| fun _ _ _ h => ok_ofExcept fun _ _ => h
    | array => exact seqWithLength_ok hv ha0
    | _ => exact ok_fail
  | byteBuf =>
    refine hpeek fun k0 t n0 ha0 => ?_
    cases t with
    | string => exact OK.bind (text_behind rfl ha0) <| fun _ _ _ h => ok_ofExcept fun _ _ => h
    | array => exact seqWithLength_ok hv ha0
    | _ => exact ok_fail
  | option =>
    refine hpeek fun k0 t n0 ha0 => ?_
    cases t with
    | null => exact unit_ok ha0
    | _ => exact hv.some k0 n0 ha0
  | unit => exact unit_ok ha
  | unitStruct => exact unit_ok ha
  | newtypeStruct => exact hv.newtype k n ha
  | seq => exact seqWithLength_ok hv ha
  | tuple len => exact seqWithLength_ok hv ha
  | tupleStruct len => exact seqWithLength_ok hv ha
  | map => exact map_ok hv ha
  | struct =>
    refine hpeek fun k0 t n0 ha0 => ?_
    cases t with
    | array => exact seqWithLength_ok hv ha0
    | object => exact map_ok hv ha0
    | _ => exact ok_fail
  | enum => exact enum_ok hv ha
  | identifier => exact str_ok ha
  | ignoredAny => exact OK.bind (unit_behind rfl ha) <| fun _ _ _ h => ok_ofExcept fun _ _ => h

end

theorem quits_ofExcept {f : Except DErr α → Except DErr β} (h : ∀ e, ∃ e', f (.error e) = .error e' ∧ True) : Quits (C := Op) (Res := OpRes) (σ := Nat) fun e => CT.ofExcept (f (.error e)) := by
  intro e d
  obtain ⟨e', h, _⟩ := h e
  dsimp only
  rw [h]
  trivial

abbrev Stop (_ _ : DErr) : Prop := True

mutual
theorem deserialize_ok (d : De V) (h1 : Aborts Stop d) (h2 : Uses d) (k : Know) (n : Nat) (ha : k.mode.canValue multi = true) : OK (rules multi b) (deserialize max d) n k fun k' _ _ => Behind b k k' := by
  cases d with
  | ret r =>
    rw [deserialize]
    cases r with
    | ok a => cases h2
    | error e => exact ok_fail
  | call m v kk =>
    rw [deserialize]
    rw [Aborts] at h1
    exact OK.attempt (method_ok (visitor_ok v h1.1 h2) ha m) (fun _ _ _ h => ok_ofExcept fun _ _ => h) (quits_ofExcept h1.2)
theorem visitor_ok (v : Vis V) (h1 : AbortsVis Stop v) (h2 : UsesVis v) : VisOk multi b (visitor max v) := by
  cases v with
  | mk prim opt newtype seq map enum =>
    rw [AbortsVis] at h1
    rw [UsesVis] at h2
    rw [visitor]
    exact
      { some := fun k n ha => deserialize_ok opt h1.1 h2.1 k n ha
        newtype := fun k n ha => deserialize_ok newtype h1.2.1 h2.2.1 k n ha
        seq := fun e l fs st k n h => visitSeq_ok seq h1.2.2.1 h2.2.2.1 e l fs st k n h
        map := fun e fs st k n h => visitMap_ok map h1.2.2.2.1 h2.2.2.2.1 e fs st k n h
        enum := fun fs st k n h => visitEnum_ok enum h1.2.2.2.2 h2.2.2.2.2 fs st k n h
        unitEnum := fun k n h => visitUnitEnum_ok enum h1.2.2.2.2 h2.2.2.2.2 k n h }
theorem visitSeq_ok (c : SeqC V) (h1 : AbortsSeq Stop c) (h2 : UsesSeq c) (e : Option Nat) (l : Nat) (fs : List Frame) (st : Bool) (k : Know) (n : Nat) (hk : k.mode = ⟨.array :: fs, st, false⟩) :
    OK (rules multi b) (visitSeq max e l c) n k fun k' _ _ => Kept b k k' := by
  cases c with
  | ret r =>
    rw [visitSeq]
    exact OK.bind (ok_ofExcept (Q := fun k' _ _ => Kept b k k') fun _ _ => .refl) <| fun _ _ _ h => ok_pure h
  | next seed kk =>
    rw [AbortsSeq] at h1
    rw [UsesSeq] at h2
    have herr : ∀ (e' : DErr) (l : Nat) (d : Nat), Over ((visitSeq max e l (kk (.error e'))).run d) := by
      intro e' l d
      obtain ⟨e'', h, _⟩ := h1.2.2 e'
      rw [h, visitSeq]
      trivial
    have hseed : ∀ k1 n1 (l : Nat), Kept b k k1 → OK (rules multi b) (CT.attempt (deserialize max seed) >>= fun r => visitSeq max e l (kk (r.map some)) : D (V × Nat)) n1 k1 fun k' _ _ => Kept b k k' := by
      intro k1 n1 l hk1
      have hm : k1.mode = ⟨.array :: fs, st, false⟩ := hk1.1.trans hk
      refine OK.attempt (deserialize_ok seed h1.1 h2.1 k1 n1 (by rw [hm]; rfl)) (fun k2 a n2 h => ?_) (fun e' d => herr e' l d)
      have hm2 : k2.mode = ⟨.array :: fs, st, false⟩ := h.1.trans (by rw [hm]; rfl)
      refine (visitSeq_ok (kk (.ok (some a))) (h1.2.1 _) (h2.2 _) e l fs st k2 n2 hm2).mono fun k3 _ _ h3 => ?_
      exact hk1.trans (Kept.trans ⟨hm2.trans hm.symm, fun hb => Nat.le_of_lt (h.2 hb)⟩ h3)
    rw [visitSeq]
    unfold nextElementSeed
    rw [CT.bind_assoc]
    refine OK.attempt (boolCall_ok (Q := fun k' _ _ => Kept b k k') (by rw [hk]; rfl) nofun fun _ _ k' h1 h2 => ⟨h1, fun hb => (h2 hb).1⟩) (fun k1 x n1 hk1 => ?_) (fun e' d => herr e' l d)
    cases x with
    | false => exact (visitSeq_ok (kk (.ok none)) (h1.2.1 _) (h2.2 _) e l fs st k1 n1 (hk1.1.trans hk)).mono fun _ _ _ h => hk1.trans h
    | true =>
      cases e with
      | none =>
        dsimp only
        rw [CT.bind_assoc]
        exact hseed k1 n1 l hk1
      | some e =>
        dsimp only
        by_cases hl : l ≥ e
        · rw [if_pos hl]
          exact (herr _ l n1).ob
        · rw [if_neg hl]
          rw [CT.bind_assoc]
          exact hseed k1 n1 (l + 1) hk1
theorem visitMap_ok (c : MapC V) (h1 : AbortsMap Stop c) (h2 : UsesMap c) (e : Bool) (fs : List Frame) (st : Bool) (k : Know) (n : Nat) (hk : k.mode = inMap fs st e) :
    OK (rules multi b) (visitMap max e c) n k fun k' a _ => k'.mode = inMap fs st a.2 ∧ (b → k'.left ≤ k.left) := by
  cases c with
  | ret r =>
    rw [visitMap]
    exact OK.bind (ok_ofExcept (Q := fun k' _ _ => Kept b k k') fun _ _ => .refl) <| fun _ _ _ h => ok_pure ⟨h.1.trans hk, h.2⟩
  | key seed kk =>
    rw [AbortsMap] at h1
    rw [UsesMap] at h2
    rw [visitMap]
    unfold nextKeySeed
    cases e with
    | true => exact ok_panic (.inl rfl)
    | false =>
      have herr : ∀ (e' : DErr) (l : Bool) (d : Nat), Over ((visitMap max l (kk (.error e'))).run d) := by
        intro e' l d
        obtain ⟨e'', h, _⟩ := h1.2.2 e'
        rw [h, visitMap]
        trivial
      rw [if_neg Bool.false_ne_true, CT.bind_assoc]
      refine OK.attempt (boolCall_ok (Q := fun k' _ _ => Kept b k k') (by rw [hk]; rfl) nofun fun _ _ k' h1 h2 => ⟨h1, fun hb => (h2 hb).1⟩) (fun k1 x n1 hk1 => ?_) (fun e' d => herr e' false d)
      cases x with
      | false => exact (visitMap_ok (kk (.ok none)) (h1.2.1 _) (h2 _) false fs st k1 n1 (hk1.1.trans hk)).mono fun _ _ _ h => ⟨h.1, fun hb => Nat.le_trans (h.2 hb) (hk1.2 hb)⟩
      | true =>
        dsimp only
        rw [CT.bind_assoc]
        have hm : k1.mode = inMap fs st false := hk1.1.trans hk
        refine OK.attempt (textCall_ok (Q := fun k' _ _ => k'.mode = inMap fs st true ∧ (b → k'.left ≤ k.left)) (by rw [hm]; rfl) nofun fun o _ k' h1 h2 => ?_) (fun k2 name n2 hk2 => ?_)
          (fun e' d => herr e' false d)
        · refine ⟨h1.trans ?_, fun hb => Nat.le_trans (h2 hb).1 (hk1.2 hb)⟩
          rw [hm]
          rfl
        · dsimp only
          cases keyDe name seed with
          | error e => exact (herr e false n2).ob
          | ok key => exact (visitMap_ok (kk (.ok (some key))) (h1.2.1 _) (h2 _) true fs st k2 n2 hk2.1).mono fun _ _ _ h => ⟨h.1, fun hb => Nat.le_trans (h.2 hb) (hk2.2 hb)⟩
  | value seed kk =>
    rw [AbortsMap] at h1
    rw [UsesMap] at h2
    rw [visitMap]
    unfold nextValueSeed
    cases e with
    | false => exact ok_panic (.inr (.inl rfl))
    | true =>
      refine OK.attempt (deserialize_ok seed h1.1 h2.1 k n (by rw [hk]; rfl)) (fun k2 a n2 h => ?_) (fun e' d => ?_)
      · have hm2 : k2.mode = inMap fs st false := h.1.trans (by rw [hk]; rfl)
        exact (visitMap_ok (kk (.ok a)) (h1.2.1 _) (h2.2 _) false fs st k2 n2 hm2).mono fun _ _ _ h' => ⟨h'.1, fun hb => Nat.le_of_lt (Nat.lt_of_le_of_lt (h'.2 hb) (h.2 hb))⟩
      · obtain ⟨e'', h, _⟩ := h1.2.2 e'
        dsimp only
        rw [h, visitMap]
        trivial
theorem visitEnum_ok (c : EnumC V) (h1 : AbortsEnum Stop c) (h2 : UsesEnum c) (fs : List Frame) (st : Bool) (k : Know) (n : Nat) (hk : k.mode = inMap fs st false) :
    OK (rules multi b) (visitEnum max c) n k fun k' a _ => a.2 = true → k'.mode = inMap fs st false ∧ (b → k'.left ≤ k.left) := by
  cases c with
  | ret r =>
    rw [visitEnum]
    exact OK.bind (ok_ofExcept (Q := fun k' _ _ => True) fun _ _ => trivial) <| fun _ _ _ h => ok_pure nofun
  | variant seed onError kk =>
    rw [AbortsEnum] at h1
    rw [UsesEnum] at h2
    rw [visitEnum]
    have herr : ∀ (e' : DErr) (d : Nat), Over ((CT.ofExcept (onError e') >>= fun v => pure (v, false) : D (V × Bool)).run d) := by
      intro e' d
      obtain ⟨e'', h, _⟩ := h1.2.2 e'
      rw [h]
      trivial
    refine OK.attempt (textCall_ok (Q := fun k' _ _ => k'.mode = inMap fs st true ∧ (b → k'.left ≤ k.left)) (by rw [hk]; rfl) nofun fun o _ k' h1 h2 => ?_) (fun k2 name n2 hk2 => ?_) herr
    · refine ⟨h1.trans ?_, fun hb => (h2 hb).1⟩
      rw [hk]
      rfl
    · dsimp only
      cases strDe name seed with
      | error e => exact (herr e n2).ob
      | ok v => exact (visitVariant_ok (kk v) (h1.2.1 v) (h2.2 v) fs st k2 n2 hk2.1).mono fun _ _ _ h ht => ⟨(h ht).1, fun hb => Nat.le_trans ((h ht).2 hb) (hk2.2 hb)⟩
theorem visitVariant_ok (c : VarC V) (h1 : AbortsVar Stop c) (h2 : UsesVar c) (fs : List Frame) (st : Bool) (k : Know) (n : Nat) (hk : k.mode = inMap fs st true) :
    OK (rules multi b) (visitVariant max c) n k fun k' a _ => a.2 = true → k'.mode = inMap fs st false ∧ (b → k'.left ≤ k.left) := by
  have hv : k.mode.canValue multi = true := by rw [hk]; rfl
  have hfin : ∀ {α : Type} {m : D α} {kk : Except DErr α → Except DErr V}, OK (rules multi b) m n k (fun k' _ _ => Behind b k k') → (∀ e, ∃ e', kk (.error e) = .error e' ∧ Stop e e') →
      OK (rules multi b) (CT.attempt m >>= fun r => CT.ofExcept (kk r) >>= fun v => pure (v, true) : D (V × Bool)) n k fun k' a _ => a.2 = true → k'.mode = inMap fs st false ∧ (b → k'.left ≤ k.left) := by
    intro α m kk hm he
    refine hm.attempt (fun k1 a n1 h => ?_) (fun e' d => ?_)
    · refine OK.bind (ok_ofExcept (Q := fun k' _ _ => Behind b k k') fun _ _ => h) <| fun k2 _ _ h => ok_pure fun _ => ?_
      exact ⟨h.1.trans (by rw [hk]; rfl), fun hb => Nat.le_of_lt (h.2 hb)⟩
    · obtain ⟨e'', h, _⟩ := he e'
      dsimp only
      rw [h]
      trivial
  cases c with
  | ret r =>
    rw [visitVariant]
    exact OK.bind (ok_ofExcept (Q := fun k' _ _ => True) fun _ _ => trivial) <| fun _ _ _ h => ok_pure nofun
  | unit kk =>
    rw [visitVariant]
    exact hfin (unit_behind rfl hv) h1
  | newtype seed kk =>
    rw [visitVariant]
    rw [AbortsVar] at h1
    exact hfin (deserialize_ok seed h1.1 h2 k n hv) h1.2
  | tuple len v kk =>
    rw [visitVariant]
    rw [AbortsVar] at h1
    exact hfin (seqWithLength_ok (visitor_ok v h1.1 h2) hv) h1.2
  | struct v kk =>
    rw [visitVariant]
    rw [AbortsVar] at h1
    exact hfin (method_ok (max := max) (visitor_ok v h1.1 h2) hv .struct) h1.2
theorem visitUnitEnum_ok (c : EnumC V) (h1 : AbortsEnum Stop c) (h2 : UsesEnum c) (k : Know) (n : Nat) (ha : k.mode.canValue multi = true) :
    OK (rules multi b) (visitUnitEnum max c) n k fun k' a _ => a.2 = true → Behind b k k' := by
  cases c with
  | ret r =>
    rw [visitUnitEnum]
    exact OK.bind (ok_ofExcept (Q := fun k' _ _ => True) fun _ _ => trivial) <| fun _ _ _ h => ok_pure nofun
  | variant seed onError kk =>
    rw [AbortsEnum] at h1
    rw [UsesEnum] at h2
    rw [visitUnitEnum]
    refine OK.attempt (deserialize_ok seed h1.1 h2.1 k n ha) (fun k1 v n1 h => ?_) (fun e' d => ?_)
    · dsimp only
      exact OK.bind (ok_ofExcept (Q := fun k' _ _ => Behind b k k') fun _ _ => h) <| fun _ _ _ h => ok_pure fun _ => h
    · obtain ⟨e'', h, _⟩ := h1.2.2 e'
      dsimp only
      rw [h]
      trivial
end

end Verif.De.Arb
