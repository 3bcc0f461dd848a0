import Verif.Spec.SerImpl
import Verif.Proofs.Ser.Value
import Verif.Proofs.Writer.After
/-!
# Arbitrary implementations of `Serialize`

They may continue after errors.
-/

namespace Verif.Ser
open Writer Json SerSpec
open WSpec (Written Step Steps Denotes Rejected Frame)
open Transfer (add_str emits_unit)

variable {α β : Type}

/-! ## Panics -/

/-- all panics are caused by incorrect usage, whatever the answers of the underlying `Write` are -/
def SafeS (m : S α) : Prop := ∀ c, Weak c → (m.run c).Safe fun r => Weak r.2

theorem SafeS.bind {m : S α} {f : α → S β} (h : SafeS m) (hf : ∀ a, SafeS (f a)) : SafeS (m >>= f) := by
  intro c hc
  rw [T.run_bind]
  refine (h c hc).bind ?_
  rintro ⟨_ | a, c'⟩ h'
  · exact h'
  · exact hf a c' h'

theorem SafeS.attempt {m : S α} (h : SafeS m) : SafeS (T.attempt m) := by
  intro c hc
  refine (h c hc).bind ?_
  rintro ⟨_ | a, c'⟩ h' <;> exact h'

theorem safe_pure {a : α} : SafeS (pure a : S α) := fun _ h => h
theorem safe_fail {e : SerErr} : SafeS (T.fail e : S α) := fun _ h => h
theorem safe_usage {u : WUsage} : SafeS (T.usage u : S α) := fun _ _ => ⟨u, rfl⟩

theorem Tree.Safe.of_bind {P : α → Prop} {Q : β → Prop} {t : Tree α} {f : α → Tree β} (h : (t.bind f).Safe Q) (hf : ∀ a, (f a).Safe Q → P a) : t.Safe P := by
  induction t with
  | ret b => exact hf b h
  | panic _ => exact h
  | emit _ _ ih => exact fun r => ih r (h r)
  | flush _ ih => exact fun r => ih r (h r)

theorem safe_op {op : WOp} {m : W Unit} (hop : OpOk op) (hm : wop op = (m >>= fun _ => pure .unit)) : SafeS (onWriter m) := by
  intro c hc
  have h := ws_wop hop hc
  rw [hm, T.run_bind] at h
  refine Tree.Safe.bind (P := fun r => Weak r.2) (Tree.Safe.of_bind h ?_) ?_
  · rintro ⟨_ | a, c'⟩ h' <;> exact h'
  · rintro ⟨_ | a, c'⟩ h' <;> exact h'

theorem safe_after {r : Ret} {m : S Unit} (h : SafeS m) : SafeS (r.after m) := by
  unfold Ret.after
  refine h.attempt.bind ?_
  rintro (e | ⟨⟨⟩⟩)
  · exact safe_fail
  · dsimp only
    split
    · exact safe_fail
    · exact safe_pure

theorem safe_compound {m k : S Unit} {err : SerErr → SerErr} (h : SafeS m) (hk : SafeS k) : SafeS (compound m err k) := by
  unfold compound
  refine h.attempt.bind ?_
  rintro (e | ⟨⟨⟩⟩)
  · exact safe_fail
  · exact hk

theorem safe_name {n : Text} : SafeS (onWriter (Writer.name n)) := safe_op (op := .name n) trivial rfl
theorem safe_beginArray : SafeS (onWriter beginArray) := safe_op (op := .beginArray) trivial rfl
theorem safe_endArray : SafeS (onWriter endArray) := safe_op (op := .endArray) trivial rfl
theorem safe_beginObject : SafeS (onWriter beginObject) := safe_op (op := .beginObject) trivial rfl
theorem safe_endObject : SafeS (onWriter endObject) := safe_op (op := .endObject) trivial rfl

theorem safe_bytes (bs : Bytes) : SafeS (serializeByteLoop bs) := by
  induction bs with
  | nil => exact safe_pure
  | cons b bs ih => rw [serializeByteLoop]; exact (safe_op (op := .numberValue (.int .u8 b.toNat)) trivial rfl).bind fun _ => ih

theorem safe_checkEnd {n len : Nat} : SafeS (checkEnd n len) := by
  unfold checkEnd
  split
  · exact safe_fail
  · exact safe_pure

theorem safe_checkEndOpt {n : Option Nat} {len : Nat} : SafeS (checkEndOpt n len) := by
  cases n
  · exact safe_pure
  · exact safe_checkEnd

theorem safe_scalar (s : Scalar) (h : Ok (scalarVal s)) : SafeS (serializeScalar s) := by
  cases s with
  | bool b => exact safe_op (op := .boolValue b) trivial rfl
  | int t i => exact safe_op (op := .numberValue (.int t i)) trivial rfl
  | float f => exact safe_op (op := .fpNumberValue f) h rfl
  | char c => exact safe_op (op := .stringValue [c]) trivial rfl
  | str t => exact safe_op (op := .stringValue t) trivial rfl
  | bytes bs => exact safe_beginArray.bind fun _ => (safe_bytes bs).bind fun _ => safe_endArray
  | none => exact safe_op (op := .nullValue) trivial rfl
  | unit => exact safe_op (op := .nullValue) trivial rfl
  | unitStruct => exact safe_op (op := .nullValue) trivial rfl
  | unitVariant v => exact safe_op (op := .stringValue v) trivial rfl

/-- the string form of a number, or the error -/
theorem intKey_eq (t : IntTy) (i : Int) : finiteNumberKey (.int t i) = onWriter (Writer.name (decimal i)) := by
  rw [← decimal_eq, finiteNumberKey, FinNum.useJsonNumber]
  rw [if_pos ((isValid_iff _).2 (isInteger_number (intToString_isInteger i)))]

theorem floatKey_eq {f : FpNum} (h : f.finite = true → IsNumber (enc f.text)) :
    fpNumberKey f = onWriter (Writer.name f.text) ∨ fpNumberKey f = onWriter (T.fail .invalidNumber) := by
  obtain ⟨b, t⟩ := f
  cases b with
  | true => left; rw [fpNumberKey, FpNum.useJsonNumber, if_pos rfl, if_pos ((isValid_iff _).2 (h rfl))]
  | false => exact .inr rfl

theorem safe_scalarKey (s : Scalar) (h : Ok (scalarVal s)) : SafeS (serializeScalarKey s) := by
  cases s with
  | bool b => exact safe_name
  | int t i => rw [serializeScalarKey, intKey_eq]; exact safe_name
  | float f =>
    rw [serializeScalarKey]
    rcases floatKey_eq h with e | e <;> rw [e]
    · exact safe_name
    · exact fun c h => h
  | char c => exact safe_name
  | str t => exact safe_name
  | bytes bs => exact safe_fail
  | none => exact safe_fail
  | unit => exact safe_fail
  | unitStruct => exact safe_fail
  | unitVariant v => exact safe_name

theorem safe_key : (i : Impl) → Trusted i → SafeS (serializeKeyI i)
  | .fail _, _ => safe_fail
  | .scalar s r, h => by rw [serializeKeyI]; exact safe_after (safe_scalarKey s h)
  | .some v r, h => by rw [serializeKeyI]; exact safe_after (safe_key v h)
  | .newtypeStruct v r, h => by rw [serializeKeyI]; exact safe_after (safe_key v h)
  | .newtypeVariant _ _ _, _ => safe_after safe_fail
  | .seq _ _ _, _ => safe_compound safe_fail safe_pure
  | .tuple _ _ _, _ => safe_compound safe_fail safe_pure
  | .tupleStruct _ _ _, _ => safe_compound safe_fail safe_pure
  | .tupleVariant _ _ _ _, _ => safe_compound safe_fail safe_pure
  | .map _ _ _, _ => safe_compound safe_fail safe_pure
  | .struct _ _ _, _ => safe_compound safe_fail safe_pure
  | .structVariant _ _ _ _, _ => safe_compound safe_fail safe_pure

mutual
theorem safe_impl : (i : Impl) → Trusted i → SafeS (serializeI i)
  | .fail _, _ => safe_fail
  | .scalar s r, h => by rw [serializeI]; exact safe_after (safe_scalar s h)
  | .some v r, h => by rw [serializeI]; exact safe_after (safe_impl v h)
  | .newtypeStruct v r, h => by rw [serializeI]; exact safe_after (safe_impl v h)
  | .newtypeVariant _ v _, h => by
    rw [serializeI]
    exact safe_after (safe_beginObject.bind fun _ => safe_name.bind fun _ => (safe_impl v h).bind fun _ => safe_endObject)
  | .seq len _ b, h => by rw [serializeI]; exact safe_compound safe_beginArray (safe_seq len 0 b h)
  | .tuple len _ b, h => by rw [serializeI]; exact safe_compound safe_beginArray (safe_tuple safe_endArray len 0 b h)
  | .tupleStruct len _ b, h => by rw [serializeI]; exact safe_compound safe_beginArray (safe_tuple safe_endArray len 0 b h)
  | .tupleVariant _ len _ b, h => by
    rw [serializeI]
    exact safe_compound (safe_beginObject.bind fun _ => safe_name.bind fun _ => safe_beginArray) (safe_tuple (safe_endArray.bind fun _ => safe_endObject) len 0 b h)
  | .map len _ b, h => by rw [serializeI]; exact safe_compound safe_beginObject (safe_map len 0 false b h)
  | .struct len _ b, h => by rw [serializeI]; exact safe_compound safe_beginObject (safe_struct safe_endObject len 0 b h)
  | .structVariant _ len _ b, h => by
    rw [serializeI]
    exact safe_compound (safe_beginObject.bind fun _ => safe_name.bind fun _ => safe_beginObject) (safe_struct (safe_endObject.bind fun _ => safe_endObject) len 0 b h)
theorem safe_seq (o : Option Nat) (len : Nat) : (b : SeqImpl) → TrustedSeq b → SafeS (seqI o len b)
  | .elem v k, h => by
    cases o with
    | none => rw [seqI]; exact (safe_impl v h.1).attempt.bind fun r => safe_seq none len (k r) (h.2 r)
    | some n =>
      rw [seqI]
      split
      · exact safe_seq _ _ _ (h.2 _)
      · exact (safe_impl v h.1).attempt.bind fun r => safe_seq _ _ (k r) (h.2 r)
  | .fin r, _ => by rw [seqI]; exact safe_after (safe_checkEndOpt.bind fun _ => safe_endArray)
  | .drop e, _ => by rw [seqI]; exact safe_fail
theorem safe_tuple {close : S Unit} (hc : SafeS close) (n len : Nat) : (b : SeqImpl) → TrustedSeq b → SafeS (tupleI close n len b)
  | .elem v k, h => by
    rw [tupleI]
    split
    · exact safe_tuple hc _ _ _ (h.2 _)
    · exact (safe_impl v h.1).attempt.bind fun r => safe_tuple hc _ _ (k r) (h.2 r)
  | .fin r, _ => by rw [tupleI]; exact safe_after (safe_checkEnd.bind fun _ => hc)
  | .drop e, _ => by rw [tupleI]; exact safe_fail
theorem safe_map (o : Option Nat) (len : Nat) (x : Bool) : (b : MapImpl) → TrustedMap b → SafeS (mapI o len x b)
  | .key v k, h => by
    cases o with
    | none =>
      rw [mapI]
      split
      · exact safe_usage
      · exact (safe_key v h.1).attempt.bind fun r => safe_map none len true (k r) (h.2 r)
    | some n =>
      rw [mapI]
      split
      · exact safe_usage
      · split
        · exact safe_map _ _ _ _ (h.2 _)
        · exact (safe_key v h.1).attempt.bind fun r => safe_map _ _ _ (k r) (h.2 r)
  | .value v k, h => by
    rw [mapI]
    split
    · exact safe_usage
    · exact (safe_impl v h.1).attempt.bind fun r => safe_map _ _ _ (k r) (h.2 r)
  | .fin r, _ => by
    rw [mapI]
    split
    · exact safe_usage
    · exact safe_after (safe_checkEndOpt.bind fun _ => safe_endObject)
  | .drop e, _ => by rw [mapI]; exact safe_fail
theorem safe_struct {close : S Unit} (hc : SafeS close) (n len : Nat) : (b : StructImpl) → TrustedStruct b → SafeS (structI close n len b)
  | .field name v k, h => by
    rw [structI]
    split
    · exact safe_struct hc _ _ _ (h.2 _)
    · exact (safe_name.bind fun _ => safe_impl v h.1).attempt.bind fun r => safe_struct hc _ _ (k r) (h.2 r)
  | .fin r, _ => by rw [structI]; exact safe_after (safe_checkEnd.bind fun _ => hc)
  | .drop e, _ => by rw [structI]; exact safe_fail
end

/-! ## Output, if the underlying `Write` does not fail -/

variable {wst : WSettings} {w w' u : Written}

/-- Calls of the writer which the serializer makes -/
def SerOp (op : WOp) : Prop := OpOk op ∧ op ≠ .finishDocument ∧ ¬ Rejected op ∧ ∀ ops fin, op ≠ .stringValueWriter ops fin

/-- The output consists of allowed calls, and `P` holds for the result -/
def Walks (wst : WSettings) (m : S α) (w : Written) (P : Except SerErr α → Written → Prop) : Prop := ∀ c, WInv wst c w → WOk wst w →
  (∃ bs r c' ops w', (m.run c).ideal = (.ok (r, c'), bs) ∧ w'.bytes wst = w.bytes wst ++ bs ∧ WInv wst c' w' ∧ Steps wst w ops w' ∧ (∀ op ∈ ops, SerOp op) ∧ P r w') ∨
  ∃ bs x ops w', (m.run c).ideal = (.error (.usage x), bs) ∧ w'.bytes wst = w.bytes wst ++ bs ∧ Steps wst w ops w' ∧ ∀ op ∈ ops, SerOp op

theorem Walks.mono {m : S α} {P Q : Except SerErr α → Written → Prop} (h : Walks wst m w P) (hQ : ∀ r w', P r w' → Q r w') : Walks wst m w Q := by
  intro c hi hok
  rcases h c hi hok with ⟨bs, r, c', ops, w', h1, h2, h3, h4, h5, h6⟩ | h
  · exact .inl ⟨bs, r, c', ops, w', h1, h2, h3, h4, h5, hQ _ _ h6⟩
  · exact .inr h

theorem Walks.attempt {m : S α} {P : Except SerErr α → Written → Prop} (h : Walks wst m w P) : Walks wst (T.attempt m) w fun r w' => ∃ r', r = .ok r' ∧ P r' w' := by
  intro c hi hok
  unfold T.attempt
  dsimp only
  rcases h c hi hok with ⟨bs, r, c', ops, w', h1, h2, h3, h4, h5, h6⟩ | ⟨bs, x, ops, w', h1, h2⟩
  · refine .inl ⟨bs, .ok r, c', ops, w', ?_, h2, h3, h4, h5, r, rfl, h6⟩
    rw [ideal_bind, h1]
    simp [Tree.ideal]
  · refine .inr ⟨bs, x, ops, w', ?_, h2⟩
    rw [ideal_bind, h1]

theorem Walks.bind {m : S α} {f : α → S β} {P : Except SerErr α → Written → Prop} {Q : Except SerErr β → Written → Prop} (h : Walks wst m w P)
    (he : ∀ e u, P (.error e) u → Q (.error e) u) (hk : ∀ a u, P (.ok a) u → Walks wst (f a) u Q) : Walks wst (m >>= f) w Q := by
  intro c hi hok
  rcases h c hi hok with ⟨bs, r, c', ops, w', h1, h2, h3, h4, h5, h6⟩ | ⟨bs, x, ops, w', h1, h2⟩
  · cases r with
    | error e =>
      refine .inl ⟨bs, .error e, c', ops, w', ?_, h2, h3, h4, h5, he _ _ h6⟩
      rw [T.run_bind, ideal_bind, h1]
      simp [Tree.ideal]
    | ok a =>
      rcases hk a w' h6 c' h3 (hok.steps h4) with ⟨bs1, r1, c1, ops1, w1, g1, g2, g3, g4, g5, g6⟩ | ⟨bs1, x1, ops1, w1, g1, g2, g4, g5⟩
      · refine .inl ⟨bs ++ bs1, r1, c1, ops ++ ops1, w1, ?_, by rw [g2, h2, List.append_assoc], g3, steps_append.2 ⟨_, h4, g4⟩, ?_, g6⟩
        · rw [T.run_bind, ideal_bind, h1]
          dsimp only
          rw [g1]
        · intro op hop
          rcases List.mem_append.1 hop with hop | hop
          · exact h5 op hop
          · exact g5 op hop
      · refine .inr ⟨bs ++ bs1, x1, ops ++ ops1, w1, ?_, by rw [g2, h2, List.append_assoc], steps_append.2 ⟨_, h4, g4⟩, ?_⟩
        · rw [T.run_bind, ideal_bind, h1]
          dsimp only
          rw [g1]
        · intro op hop
          rcases List.mem_append.1 hop with hop | hop
          · exact h5 op hop
          · exact g5 op hop
  · refine .inr ⟨bs, x, ops, w', ?_, h2⟩
    rw [T.run_bind, ideal_bind, h1]

theorem walks_ret {m : S α} {r : Except SerErr α} {P : Except SerErr α → Written → Prop} (hm : ∀ c, m.run c = .ret (r, c)) (h : P r w) : Walks wst m w P := by
  intro c hi hok
  refine .inl ⟨[], r, c, [], w, ?_, (List.append_nil _).symm, hi, .nil, nofun, h⟩
  rw [hm]
  rfl

theorem walks_pure {a : α} {P : Except SerErr α → Written → Prop} (h : P (.ok a) w) : Walks wst (pure a) w P := walks_ret (fun _ => rfl) h
theorem walks_fail {e : SerErr} {P : Except SerErr α → Written → Prop} (h : P (.error e) w) : Walks wst (T.fail e) w P := walks_ret (fun _ => rfl) h

theorem walks_usage {x : WUsage} {P : Except SerErr α → Written → Prop} : Walks wst (T.usage x) w P := by
  intro c hi hok
  exact .inr ⟨[], x, [], w, rfl, (List.append_nil _).symm, .nil, nofun⟩

/-- a call of the writer -/
theorem walks_op {op : WOp} {m : W Unit} (hop : OpOk op) (hf : op ≠ .finishDocument) (hs : ∀ ops fin, op ≠ .stringValueWriter ops fin) (hm : wop op = (m >>= fun _ => pure .unit)) :
    Walks wst (onWriter m) w fun r u => (r = .ok () ∧ Step wst w op u ∧ ¬ Rejected op) ∨ (∃ e, r = .error e) ∧ u = w ∧ Rejected op := by
  intro c hi hok
  cases wop_outcome hi hok op hop with
  | done w' out bs c' h1 h2 h3 h4 h5 h6 =>
    rw [hm] at h2
    refine .inl ⟨bs, .ok (), c', [op], w', onWriter_emits (emits_unit h2), h3, h4, .cons h1 .nil, ?_, .inl ⟨rfl, h1, h5⟩⟩
    intro o ho
    rw [List.mem_singleton.1 ho]
    exact ⟨hop, hf, h5, hs⟩
  | rejected h1 h2 =>
    rw [hm] at h2
    refine .inl ⟨[], .error (convertErr .invalidNumber), c, [], w, ?_, (List.append_nil _).symm, hi, .nil, nofun, .inr ⟨⟨_, rfl⟩, rfl, h1⟩⟩
    refine onWriter_errs (e := .invalidNumber) ?_
    rcases Writer.outcome m c with ⟨b, a, s, g1⟩ | ⟨b, e, s, g1⟩ | ⟨b, p, g1⟩
    · have g2 := g1.last (f := fun _ => pure WOut.unit) emits_pure
      unfold Errs Emits at *
      rw [g2] at h2
      cases h2
    · have g2 : Errs (m >>= fun _ => pure WOut.unit) c b e s := g1.bind
      unfold Errs at *
      rw [g2] at h2
      rw [g1]
      injection h2 with h3 h4
      injection h3 with h3
      injection h3 with h3 h5
      injection h3 with h3
      subst h3 h4 h5
      rfl
    · have g2 : Panics (m >>= fun _ => pure WOut.unit) c b p := g1.bind
      unfold Errs Panics at *
      rw [g2] at h2
      cases h2
  | panic x h1 h2 =>
    rw [hm] at h1
    refine .inr ⟨[], x, [], w, ?_, (List.append_nil _).symm, .nil, nofun⟩
    have : Panics m c [] (.usage x) := by
      rcases Writer.outcome m c with ⟨b, a, s, g1⟩ | ⟨b, e, s, g1⟩ | ⟨b, p, g1⟩
      · have g2 := g1.last (f := fun _ => pure WOut.unit) emits_pure
        unfold Panics Emits at *
        rw [g2] at h1
        cases h1
      · have g2 : Errs (m >>= fun _ => pure WOut.unit) c b e s := g1.bind
        unfold Errs Panics at *
        rw [g2] at h1
        cases h1
      · have g2 : Panics (m >>= fun _ => pure WOut.unit) c b p := g1.bind
        unfold Panics at *
        rw [g2] at h1
        injection h1 with h3 h4
        injection h3 with h3
        rw [g1, h3, h4]
    unfold Panics at this
    show ((m.run c).bind _).ideal = _
    rw [ideal_bind, this]

/-- at least `k` containers which were opened by the implementation are open -/
def In (wst : WSettings) (w : Written) (k : Nat) (u : Written) : Prop := w.CanAdd wst ∧ ∃ gs : List Frame, k ≤ gs.length ∧ u = ⟨w.tops, gs ++ w.frames, none⟩

theorem In.after {k : Nat} (h : In wst w k u) (hk : 0 < k) (r : Except SerErr Unit) : After wst w r u := by
  obtain ⟨hc, gs, h1, rfl⟩ := h
  refine .unfinished r hc ?_
  rintro rfl
  simp at h1
  omega

theorem after_error {r : Except SerErr Unit} (h : After wst w r u) (e : SerErr) : After wst w (.error e) u := by
  cases h with
  | value _ j h => exact .value _ j h
  | unfinished _ h h' => exact .unfinished _ h h'
  | nothing => exact .nothing e

/-- adding a value changes only the innermost container -/
theorem add_cons (tops : List JVal) (g : Frame) (fs : List Frame) (j : JVal) : ∃ g', Written.add ⟨tops, g :: fs, none⟩ j = ⟨tops, g' :: fs, none⟩ := by
  cases g with
  | arr vs => exact ⟨_, rfl⟩
  | obj ms n => cases n <;> exact ⟨_, rfl⟩

theorem In.add {k : Nat} (h : In wst w k u) (hk : 0 < k) (j : JVal) : In wst w k (u.add j) := by
  obtain ⟨hc, gs, h1, rfl⟩ := h
  cases gs with
  | nil => simp at h1; omega
  | cons g gs =>
    obtain ⟨g', hg⟩ := add_cons w.tops g (gs ++ w.frames) j
    exact ⟨hc, g' :: gs, h1, hg⟩

/-- a nested implementation -/
theorem In.nested {k : Nat} {u' : Written} {r : Except SerErr Unit} (h : In wst w k u) (hk : 0 < k) (ha : After wst u r u') : In wst w k u' := by
  cases ha with
  | value _ j _ => exact h.add hk j
  | @unfinished _ gs _ _ =>
    obtain ⟨hc, gs', h1, rfl⟩ := h
    exact ⟨hc, gs ++ gs', by rw [List.length_append]; omega, by simp⟩
  | nothing => exact h

theorem In.name {k : Nat} {u' : Written} {n : Text} (h : In wst w k u) (hk : 0 < k) (hs : Step wst u (.name n) u') : In wst w k u' := by
  obtain ⟨hc, gs, h1, h2⟩ := h
  cases hs with
  | value _ hd => cases hd
  | rejected hr => cases hr
  | unfinished _ hu => cases hu
  | @name tops ms fs _ =>
    injection h2 with h2 h3 _
    cases gs with
    | nil => simp at h1; omega
    | cons g gs =>
      injection h3 with _ h3
      exact ⟨hc, .obj ms (some n) :: gs, h1, by rw [h2, h3]; rfl⟩

theorem In.begin {k : Nat} {g : Frame} (h : In wst w k u) : In wst w (k + 1) ⟨u.tops, g :: u.frames, none⟩ := by
  obtain ⟨hc, gs, h1, rfl⟩ := h
  exact ⟨hc, g :: gs, by simpa using h1, rfl⟩

theorem in_self (hc : w.CanAdd wst) : In wst w 0 w := by
  refine ⟨hc, [], Nat.le_refl _, ?_⟩
  obtain ⟨tops, fs, str⟩ := w
  obtain rfl : str = none := hc.1
  rfl

/-- a container is closed -/
theorem In.close {k : Nat} {fs : List Frame} {tops : List JVal} {g : Frame} {j : JVal} (h : In wst w (k + 1) ⟨tops, g :: fs, none⟩) :
    (0 < k → In wst w k (Written.add ⟨tops, fs, none⟩ j)) ∧ ∀ r, After wst w r (Written.add ⟨tops, fs, none⟩ j) := by
  obtain ⟨hc, gs, h1, h2⟩ := h
  injection h2 with h2 h3 _
  cases gs with
  | nil => simp at h1
  | cons g' gs =>
    injection h3 with _ h3
    subst h2 h3
    have h4 : In wst w gs.length ⟨w.tops, gs ++ w.frames, none⟩ := ⟨hc, gs, Nat.le_refl _, rfl⟩
    rw [List.length_cons] at h1
    refine ⟨fun hk => ?_, fun r => ?_⟩
    · obtain ⟨_, gs', h5, h6⟩ := h4.add (by omega) j
      exact ⟨hc, gs', by omega, h6⟩
    · cases gs with
      | nil =>
        have : (⟨w.tops, w.frames, none⟩ : Written) = w := by
          obtain ⟨tops, fs, str⟩ := w
          obtain rfl : str = none := hc.1
          rfl
        show After wst w r (Written.add ⟨w.tops, w.frames, none⟩ j)
        rw [this]
        exact .value r j hc
      | cons g gs => exact (h4.add (by simp) j).after (by simp) r

/-- either an error is returned, or `P` holds -/
def OkOr (P E : Written → Prop) (r : Except SerErr Unit) (u : Written) : Prop := match r with
  | .ok _ => P u
  | .error _ => E u

theorem walks_name {k : Nat} {n : Text} (h : In wst w k u) (hk : 0 < k) : Walks wst (onWriter (Writer.name n)) u fun _ u' => In wst w k u' := by
  refine (walks_op (op := .name n) trivial nofun nofun rfl).mono ?_
  rintro r u' (⟨_, h1, _⟩ | ⟨_, _, h1⟩)
  · exact h.name hk h1
  · cases h1

theorem walks_beginArray : Walks wst (onWriter beginArray) u fun r u' => r = .ok () ∧ u.CanAdd wst ∧ u' = ⟨u.tops, .arr [] :: u.frames, none⟩ := by
  refine (walks_op (op := .beginArray) trivial nofun nofun rfl).mono ?_
  rintro r u' (⟨h1, h2, _⟩ | ⟨_, _, h1⟩)
  · cases h2 with
    | value _ hd => cases hd
    | rejected hr => cases hr
    | unfinished _ hu => cases hu
    | beginArray hc =>
      refine ⟨h1, hc, ?_⟩
      obtain ⟨tops, fs, str⟩ := u
      obtain rfl : str = none := hc.1
      rfl
  · cases h1

theorem walks_beginObject : Walks wst (onWriter beginObject) u fun r u' => r = .ok () ∧ u.CanAdd wst ∧ u' = ⟨u.tops, .obj [] none :: u.frames, none⟩ := by
  refine (walks_op (op := .beginObject) trivial nofun nofun rfl).mono ?_
  rintro r u' (⟨h1, h2, _⟩ | ⟨_, _, h1⟩)
  · cases h2 with
    | value _ hd => cases hd
    | rejected hr => cases hr
    | unfinished _ hu => cases hu
    | beginObject hc =>
      refine ⟨h1, hc, ?_⟩
      obtain ⟨tops, fs, str⟩ := u
      obtain rfl : str = none := hc.1
      rfl
  · cases h1

theorem walks_endArray {k : Nat} (h : In wst w (k + 1) u) : Walks wst (onWriter endArray) u fun r u' => r = .ok () ∧ (0 < k → In wst w k u') ∧ ∀ r, After wst w r u' := by
  refine (walks_op (op := .endArray) trivial nofun nofun rfl).mono ?_
  rintro r u' (⟨h1, h2, _⟩ | ⟨_, _, h1⟩)
  · cases h2 with
    | value _ hd => cases hd
    | rejected hr => cases hr
    | unfinished _ hu => cases hu
    | endArray => exact ⟨h1, h.close⟩
  · cases h1

theorem walks_endObject {k : Nat} (h : In wst w (k + 1) u) : Walks wst (onWriter endObject) u fun r u' => r = .ok () ∧ (0 < k → In wst w k u') ∧ ∀ r, After wst w r u' := by
  refine (walks_op (op := .endObject) trivial nofun nofun rfl).mono ?_
  rintro r u' (⟨h1, h2, _⟩ | ⟨_, _, h1⟩)
  · cases h2 with
    | value _ hd => cases hd
    | rejected hr => cases hr
    | unfinished _ hu => cases hu
    | endObject => exact ⟨h1, h.close⟩
  · cases h1

/-- `end` of a compound serializer -/
theorem close_array (h : In wst w 1 u) : Walks wst (onWriter endArray) u (After wst w) := (walks_endArray (k := 0) h).mono fun r _ h => h.2.2 r
theorem close_object (h : In wst w 1 u) : Walks wst (onWriter endObject) u (After wst w) := (walks_endObject (k := 0) h).mono fun r _ h => h.2.2 r

theorem close_array_object (h : In wst w 2 u) : Walks wst (do onWriter endArray; onWriter endObject) u (After wst w) :=
  (walks_endArray (k := 1) h).bind (fun _ _ h => h.2.2 _) fun _ _ h => close_object (h.2.1 Nat.one_pos)
theorem close_object_object (h : In wst w 2 u) : Walks wst (do onWriter endObject; onWriter endObject) u (After wst w) :=
  (walks_endObject (k := 1) h).bind (fun _ _ h => h.2.2 _) fun _ _ h => close_object (h.2.1 Nat.one_pos)

/-- opening a compound serializer -/
theorem open_array : Walks wst (onWriter beginArray) w (OkOr (In wst w 1) fun _ => False) := by
  refine walks_beginArray.mono ?_
  rintro r u ⟨rfl, hc, rfl⟩
  exact (in_self hc).begin

theorem open_object : Walks wst (onWriter beginObject) w (OkOr (In wst w 1) fun _ => False) := by
  refine walks_beginObject.mono ?_
  rintro r u ⟨rfl, hc, rfl⟩
  exact (in_self hc).begin

/-- opening a variant -/
theorem open_variant {v : Text} : Walks wst (do onWriter beginObject; onWriter (Writer.name v)) w fun _ => In wst w 1 := by
  refine open_object.bind (fun _ _ h => h.elim) fun _ u h => walks_name (show In wst w 1 u from h) Nat.one_pos

theorem open_variant_array {v : Text} : Walks wst (do onWriter beginObject; onWriter (Writer.name v); onWriter beginArray) w (OkOr (In wst w 2) (In wst w 1)) := by
  refine open_object.bind (fun _ _ h => h.elim) fun _ u h => (walks_name (show In wst w 1 u from h) Nat.one_pos).bind (fun _ _ h => h) fun _ u h => ?_
  refine walks_beginArray.mono ?_
  rintro r u ⟨rfl, hc, rfl⟩
  exact h.begin

theorem open_variant_object {v : Text} : Walks wst (do onWriter beginObject; onWriter (Writer.name v); onWriter beginObject) w (OkOr (In wst w 2) (In wst w 1)) := by
  refine open_object.bind (fun _ _ h => h.elim) fun _ u h => (walks_name (show In wst w 1 u from h) Nat.one_pos).bind (fun _ _ h => h) fun _ u h => ?_
  refine walks_beginObject.mono ?_
  rintro r u ⟨rfl, hc, rfl⟩
  exact h.begin

theorem walks_after {r : Ret} {m : S Unit} (h : Walks wst m u (After wst w)) : Walks wst (r.after m) u (After wst w) := by
  unfold Ret.after
  refine h.attempt.bind (fun e _ h => ?_) fun x u' h => ?_
  · obtain ⟨_, h, _⟩ := h; cases h
  · obtain ⟨r', h1, h2⟩ := h
    injection h1 with h1
    subst h1
    match x with
    | .error e => exact walks_fail (after_error h2 _)
    | .ok () =>
      dsimp only
      split
      · exact walks_fail (after_error h2 _)
      · exact walks_pure h2

theorem walks_compound {m k : S Unit} {err : SerErr → SerErr} {P E : Written → Prop} (h : Walks wst m w (OkOr P E)) (he : ∀ e u, E u → After wst w (.error e) u)
    (hk : ∀ u, P u → Walks wst k u (After wst w)) : Walks wst (compound m err k) w (After wst w) := by
  unfold compound
  refine h.attempt.bind (fun e _ h => ?_) fun x u' h => ?_
  · obtain ⟨_, h, _⟩ := h; cases h
  · obtain ⟨r', h1, h2⟩ := h
    injection h1 with h1
    subst h1
    match x with
    | .error e => exact walks_fail (he _ _ h2)
    | .ok () => exact hk _ h2

/-- a single value -/
theorem walks_value {op : WOp} {m : W Unit} (hop : OpOk op) (hf : op ≠ .finishDocument) (hs : ∀ ops fin, op ≠ .stringValueWriter ops fin) (hm : wop op = (m >>= fun _ => pure .unit))
    (hst : ∀ w u, Step wst w op u → ¬ Rejected op → w.CanAdd wst ∧ ∃ j, u = w.add j) : Walks wst (onWriter m) w (After wst w) := by
  refine (walks_op hop hf hs hm).mono ?_
  rintro r u (⟨_, h1, h2⟩ | ⟨⟨e, rfl⟩, rfl, _⟩)
  · obtain ⟨hc, j, rfl⟩ := hst _ _ h1 h2
    exact .value _ j hc
  · exact .nothing e

theorem walks_bytes (bs : Bytes) : ∀ {u}, In wst w 1 u → Walks wst (serializeByteLoop bs) u fun _ u' => In wst w 1 u' := by
  induction bs with
  | nil => exact fun h => walks_pure h
  | cons b bs ih =>
    intro u h
    rw [serializeByteLoop]
    refine Walks.bind (P := fun _ => In wst w 1) ?_ (fun _ _ h => h) fun _ _ h => ih h
    refine (walks_value (op := .numberValue (.int .u8 b.toNat)) trivial nofun nofun rfl ?_).mono fun r u' h' => h.nested Nat.one_pos h'
    intro w u hs hr
    cases hs with
    | value hc hd => exact ⟨hc, _, rfl⟩
    | rejected hr' => exact absurd hr' hr
    | unfinished _ hu => cases hu

theorem walks_scalar (s : Scalar) (h : Ok (scalarVal s)) : Walks wst (serializeScalar s) w (After wst w) := by
  have hst : ∀ {op : WOp}, (∀ t, ¬ WSpec.Unfinished op t) → op ≠ .beginArray → op ≠ .beginObject → op ≠ .endArray → op ≠ .endObject → (∀ n, op ≠ .name n) → op ≠ .finishDocument →
      ∀ w u, Step wst w op u → ¬ Rejected op → w.CanAdd wst ∧ ∃ j, u = w.add j := by
    intro op h1 h2 h3 h4 h5 h6 h7 w u hs hr
    cases hs with
    | value hc hd => exact ⟨hc, _, rfl⟩
    | rejected hr' => exact absurd hr' hr
    | unfinished _ hu => exact absurd hu (h1 _)
    | beginArray => exact absurd rfl h2
    | beginObject => exact absurd rfl h3
    | endArray => exact absurd rfl h4
    | endObject => exact absurd rfl h5
    | name => exact absurd rfl (h6 _)
    | finish => exact absurd rfl h7
  cases s with
  | bool b => exact walks_value (op := .boolValue b) trivial nofun nofun rfl (hst nofun nofun nofun nofun nofun nofun nofun)
  | int t i => exact walks_value (op := .numberValue (.int t i)) trivial nofun nofun rfl (hst nofun nofun nofun nofun nofun nofun nofun)
  | float f => exact walks_value (op := .fpNumberValue f) h nofun nofun rfl (hst nofun nofun nofun nofun nofun nofun nofun)
  | char c => exact walks_value (op := .stringValue [c]) trivial nofun nofun rfl (hst nofun nofun nofun nofun nofun nofun nofun)
  | str t => exact walks_value (op := .stringValue t) trivial nofun nofun rfl (hst nofun nofun nofun nofun nofun nofun nofun)
  | bytes bs =>
    exact open_array.bind (fun _ _ h => h.elim) fun _ u h => (walks_bytes bs (show In wst w 1 u from h)).bind (fun _ _ h => h.after Nat.one_pos _) fun _ _ h => close_array h
  | none => exact walks_value (op := .nullValue) trivial nofun nofun rfl (hst nofun nofun nofun nofun nofun nofun nofun)
  | unit => exact walks_value (op := .nullValue) trivial nofun nofun rfl (hst nofun nofun nofun nofun nofun nofun nofun)
  | unitStruct => exact walks_value (op := .nullValue) trivial nofun nofun rfl (hst nofun nofun nofun nofun nofun nofun nofun)
  | unitVariant v => exact walks_value (op := .stringValue v) trivial nofun nofun rfl (hst nofun nofun nofun nofun nofun nofun nofun)

section
variable {k : Nat}

theorem keys_after {r : Ret} {m : S Unit} (h : Walks wst m u fun _ => In wst w k) : Walks wst (r.after m) u fun _ => In wst w k := by
  unfold Ret.after
  refine h.attempt.bind (fun e _ h => ?_) fun x u' h => ?_
  · obtain ⟨_, h, _⟩ := h; cases h
  · obtain ⟨r', h1, h2⟩ := h
    injection h1 with h1
    subst h1
    match x with
    | .error e => exact walks_fail h2
    | .ok () =>
      dsimp only
      split
      · exact walks_fail h2
      · exact walks_pure h2

theorem keys_scalar (s : Scalar) (hs : Ok (scalarVal s)) (h : In wst w k u) (hk : 0 < k) : Walks wst (serializeScalarKey s) u fun _ => In wst w k := by
  cases s with
  | bool b => exact walks_name h hk
  | int t i => rw [serializeScalarKey, intKey_eq]; exact walks_name h hk
  | float f =>
    rw [serializeScalarKey]
    rcases floatKey_eq hs with e | e <;> rw [e]
    · exact walks_name h hk
    · exact walks_ret (fun _ => rfl) h
  | char c => exact walks_name h hk
  | str t => exact walks_name h hk
  | bytes bs => exact walks_fail h
  | none => exact walks_fail h
  | unit => exact walks_fail h
  | unitStruct => exact walks_fail h
  | unitVariant v => exact walks_name h hk

theorem keys_error {err : SerErr → SerErr} (h : In wst w k u) : Walks wst (compound errKeyNotString err (pure ())) u fun _ => In wst w k := walks_ret (fun _ => rfl) h

theorem walks_key (hk : 0 < k) : (i : Impl) → Trusted i → ∀ {u}, In wst w k u → Walks wst (serializeKeyI i) u fun _ => In wst w k
  | .fail _, _, _, hi => walks_fail hi
  | .scalar s r, h, _, hi => by rw [serializeKeyI]; exact keys_after (keys_scalar s h hi hk)
  | .some v r, h, _, hi => by rw [serializeKeyI]; exact keys_after (walks_key hk v h hi)
  | .newtypeStruct v r, h, _, hi => by rw [serializeKeyI]; exact keys_after (walks_key hk v h hi)
  | .newtypeVariant _ _ _, _, _, hi => keys_after (walks_fail hi)
  | .seq _ _ _, _, _, hi => keys_error hi
  | .tuple _ _ _, _, _, hi => keys_error hi
  | .tupleStruct _ _ _, _, _, hi => keys_error hi
  | .tupleVariant _ _ _ _, _, _, hi => keys_error hi
  | .map _ _ _, _, _, hi => keys_error hi
  | .struct _ _ _, _, _, hi => keys_error hi
  | .structVariant _ _ _ _, _, _, hi => keys_error hi

theorem walks_checkEnd {n len : Nat} (h : In wst w k u) : Walks wst (checkEnd n len) u fun _ => In wst w k := by
  unfold checkEnd
  split
  · exact walks_fail h
  · exact walks_pure h

theorem walks_checkEndOpt {n : Option Nat} {len : Nat} (h : In wst w k u) : Walks wst (checkEndOpt n len) u fun _ => In wst w k := by
  cases n
  · exact walks_pure h
  · exact walks_checkEnd h

/-- what follows after a call whose result is given to the implementation -/
theorem Walks.result {m : S Unit} {f : Except SerErr Unit → S Unit} {P : Except SerErr Unit → Written → Prop} {Q : Except SerErr Unit → Written → Prop} (h : Walks wst m u P)
    (hf : ∀ r u', P r u' → Walks wst (f r) u' Q) : Walks wst (T.attempt m >>= f) u Q := by
  refine h.attempt.bind (fun e _ h => ?_) fun x u' h => ?_
  · obtain ⟨_, h, _⟩ := h; cases h
  · obtain ⟨r', h1, h2⟩ := h
    injection h1 with h1
    subst h1
    exact hf _ _ h2

end

mutual
theorem walks_impl : (i : Impl) → Trusted i → ∀ {w}, Walks wst (serializeI i) w (After wst w)
  | .fail _, _, _ => walks_fail (.nothing _)
  | .scalar s r, h, _ => by rw [serializeI]; exact walks_after (walks_scalar s h)
  | .some v r, h, _ => by rw [serializeI]; exact walks_after (walks_impl v h)
  | .newtypeStruct v r, h, _ => by rw [serializeI]; exact walks_after (walks_impl v h)
  | .newtypeVariant _ v _, h, w => by
    rw [serializeI]
    refine walks_after (open_object.bind (fun _ _ h => h.elim) fun _ u h1 => (walks_name (show In wst w 1 u from h1) Nat.one_pos).bind (fun _ _ h => h.after Nat.one_pos _) fun _ u h1 => ?_)
    refine (walks_impl v h).bind (fun _ _ h2 => (h1.nested Nat.one_pos h2).after Nat.one_pos _) fun _ _ h2 => close_object (h1.nested Nat.one_pos h2)
  | .seq len _ b, h, w => by
    rw [serializeI]; exact walks_compound open_array (fun _ _ h => h.elim) fun u hu => walks_seq len 0 b h hu
  | .tuple len _ b, h, w => by
    rw [serializeI]; exact walks_compound open_array (fun _ _ h => h.elim) fun u hu => walks_tuple Nat.one_pos (fun _ => close_array) len 0 b h hu
  | .tupleStruct len _ b, h, w => by
    rw [serializeI]; exact walks_compound open_array (fun _ _ h => h.elim) fun u hu => walks_tuple Nat.one_pos (fun _ => close_array) len 0 b h hu
  | .tupleVariant _ len _ b, h, w => by
    rw [serializeI]
    exact walks_compound open_variant_array (fun _ _ h => h.after Nat.one_pos _) fun u hu => walks_tuple Nat.two_pos (fun _ => close_array_object) len 0 b h hu
  | .map len _ b, h, w => by
    rw [serializeI]; exact walks_compound open_object (fun _ _ h => h.elim) fun u hu => walks_map len 0 false b h hu
  | .struct len _ b, h, w => by
    rw [serializeI]; exact walks_compound open_object (fun _ _ h => h.elim) fun u hu => walks_struct Nat.one_pos (fun _ => close_object) len 0 b h hu
  | .structVariant _ len _ b, h, w => by
    rw [serializeI]
    exact walks_compound open_variant_object (fun _ _ h => h.after Nat.one_pos _) fun u hu => walks_struct Nat.two_pos (fun _ => close_object_object) len 0 b h hu
theorem walks_seq (o : Option Nat) (len : Nat) : (b : SeqImpl) → TrustedSeq b → ∀ {w u}, In wst w 1 u → Walks wst (seqI o len b) u (After wst w)
  | .elem v k, h, w, u, hi => by
    cases o with
    | none => rw [seqI]; exact (walks_impl v h.1).result fun r _ h' => walks_seq none len (k r) (h.2 r) (hi.nested Nat.one_pos h')
    | some n =>
      rw [seqI]
      split
      · exact walks_seq _ _ _ (h.2 _) hi
      · exact (walks_impl v h.1).result fun r _ h' => walks_seq _ _ (k r) (h.2 r) (hi.nested Nat.one_pos h')
  | .fin r, _, w, u, hi => by
    rw [seqI]; exact walks_after ((walks_checkEndOpt hi).bind (fun _ _ h => h.after Nat.one_pos _) fun _ _ h => close_array h)
  | .drop e, _, w, u, hi => by rw [seqI]; exact walks_fail (hi.after Nat.one_pos _)
theorem walks_tuple {close : S Unit} {m : Nat} {w : Written} (hm : 0 < m) (hc : ∀ u, In wst w m u → Walks wst close u (After wst w)) (n len : Nat) :
    (b : SeqImpl) → TrustedSeq b → ∀ {u}, In wst w m u → Walks wst (tupleI close n len b) u (After wst w)
  | .elem v k, h, u, hi => by
    rw [tupleI]
    split
    · exact walks_tuple hm hc _ _ _ (h.2 _) hi
    · exact (walks_impl v h.1).result fun r _ h' => walks_tuple hm hc _ _ (k r) (h.2 r) (hi.nested hm h')
  | .fin r, _, u, hi => by
    rw [tupleI]; exact walks_after ((walks_checkEnd hi).bind (fun _ _ h => h.after hm _) fun _ _ h => hc _ h)
  | .drop e, _, u, hi => by rw [tupleI]; exact walks_fail (hi.after hm _)
theorem walks_map (o : Option Nat) (len : Nat) (x : Bool) : (b : MapImpl) → TrustedMap b → ∀ {w u}, In wst w 1 u → Walks wst (mapI o len x b) u (After wst w)
  | .key v k, h, w, u, hi => by
    cases o with
    | none =>
      rw [mapI]
      split
      · exact walks_usage
      · exact (walks_key Nat.one_pos v h.1 hi).result fun r _ h' => walks_map none len true (k r) (h.2 r) h'
    | some n =>
      rw [mapI]
      split
      · exact walks_usage
      · split
        · exact walks_map _ _ _ _ (h.2 _) hi
        · exact (walks_key Nat.one_pos v h.1 hi).result fun r _ h' => walks_map _ _ _ (k r) (h.2 r) h'
  | .value v k, h, w, u, hi => by
    rw [mapI]
    split
    · exact walks_usage
    · exact (walks_impl v h.1).result fun r _ h' => walks_map _ _ _ (k r) (h.2 r) (hi.nested Nat.one_pos h')
  | .fin r, _, w, u, hi => by
    rw [mapI]
    split
    · exact walks_usage
    · exact walks_after ((walks_checkEndOpt hi).bind (fun _ _ h => h.after Nat.one_pos _) fun _ _ h => close_object h)
  | .drop e, _, w, u, hi => by rw [mapI]; exact walks_fail (hi.after Nat.one_pos _)
theorem walks_struct {close : S Unit} {m : Nat} {w : Written} (hm : 0 < m) (hc : ∀ u, In wst w m u → Walks wst close u (After wst w)) (n len : Nat) :
    (b : StructImpl) → TrustedStruct b → ∀ {u}, In wst w m u → Walks wst (structI close n len b) u (After wst w)
  | .field name v k, h, u, hi => by
    rw [structI]
    split
    · exact walks_struct hm hc _ _ _ (h.2 _) hi
    · refine Walks.result (P := fun _ => In wst w m) ?_ fun r _ h' => walks_struct hm hc _ _ (k r) (h.2 r) h'
      exact (walks_name hi hm).bind (fun _ _ h => h) fun _ _ h1 => (walks_impl v h.1).mono fun _ _ h2 => h1.nested hm h2
  | .fin r, _, u, hi => by
    rw [structI]; exact walks_after ((walks_checkEnd hi).bind (fun _ _ h => h.after hm _) fun _ _ h => hc _ h)
  | .drop e, _, u, hi => by rw [structI]; exact walks_fail (hi.after hm _)
end

end Verif.Ser
