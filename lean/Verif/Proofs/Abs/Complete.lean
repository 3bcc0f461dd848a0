import Verif.Proofs.Abs.Inv
/-!
# Valid documents are consumed

Equations for the methods of the reader in front of a value of a document: where the reader is afterwards.
-/

namespace Verif.Abs
open Reader Utf8 Json

section
variable {st : Settings} {c : Ctx} {pos : Pos} {p : Peeked} {l : Lead} {r : Bytes} {s s' s'' : St}

/-! ## Peeking first does not matter -/

/-- peeking at the token `p` leads from `s` to `s'` -/
structure PeekTo (p : Peeked) (s s' : St) : Prop where
  run : peekInternalOptional.run s = .ok (some p) s'
  peeked : s'.peeked = some p
  emn : s'.expectsMemberName = s.expectsMemberName
  stack : s'.stack = s.stack
  isEmpty : s'.isEmpty = s.isEmpty
  sra : s'.stringReaderActive = false
  sra0 : s.stringReaderActive = false
  settings : s'.settings = s.settings

theorem bind_congr {α β : Type} {m : R AbsSrc α} {f : α → R AbsSrc β} (h : m.run s = m.run s') : (m >>= f).run s = (m >>= f).run s' := by
  rw [M.run_bind, M.run_bind, h]

namespace PeekTo
variable (h : PeekTo p s s')
include h

theorem run' : peekInternalOptional.run s' = .ok (some p) s' := by
  unfold peekInternalOptional
  rw [run_get, if_neg (by rw [h.sra]; exact Bool.false_ne_true), if_pos (by rw [h.peeked]; rfl), h.peeked]
  rfl

theorem pi : peekInternal.run s = .ok p s' := (M.bind_ok h.run).trans rfl
theorem pi' : peekInternal.run s' = .ok p s' := (M.bind_ok h.run').trans rfl

theorem refl : PeekTo p s' s' := ⟨h.run', h.peeked, rfl, rfl, rfl, h.sra, h.sra, rfl⟩

theorem isInArray : isInArray s' = isInArray s := by unfold Reader.isInArray; rw [h.stack]
theorem isInObject : isInObject s' = isInObject s := by unfold Reader.isInObject; rw [h.stack]
theorem expectsMemberValue : expectsMemberValue s' = expectsMemberValue s := by unfold Reader.expectsMemberValue; rw [h.isInObject, h.emn]

theorem sev {t : ValueType} {chk : Bool} (he : s.expectsMemberName = false) : (startExpectedValueType t chk).run s = (startExpectedValueType t chk).run s' := by
  unfold startExpectedValueType
  rw [run_get, run_get, h.emn, he, if_neg (by exact Bool.false_ne_true), M.bind_ok h.pi, M.bind_ok h.pi']

theorem peek (he : s.expectsMemberName = false) : peek.run s = (mapPeeked p).run s' := by
  unfold Reader.peek
  rw [run_get, he, if_neg (by exact Bool.false_ne_true), M.bind_ok h.pi]

end PeekTo

namespace PeekTo
variable (h : PeekTo p s s') (he : s.expectsMemberName = false)
include h

theorem onContainerStart {t : ValueType} {v : StackValue} (he : s.expectsMemberName = false) : (onContainerStart t v).run s = (onContainerStart t v).run s' := bind_congr (h.sev he)
theorem beginArray (he : s.expectsMemberName = false) : beginArray.run s = beginArray.run s' := bind_congr (h.onContainerStart he)
theorem beginObject (he : s.expectsMemberName = false) : beginObject.run s = beginObject.run s' := bind_congr (h.onContainerStart he)
theorem nextNull (he : s.expectsMemberName = false) : nextNull.run s = nextNull.run s' := bind_congr (h.sev he)
theorem nextBool (he : s.expectsMemberName = false) : nextBool.run s = nextBool.run s' := bind_congr (h.sev he)
theorem nextString (he : s.expectsMemberName = false) : nextString.run s = nextString.run s' := bind_congr (h.sev he)
theorem nextStr (he : s.expectsMemberName = false) : nextStr.run s = nextStr.run s' := bind_congr (h.sev he)
theorem nextStringReader (he : s.expectsMemberName = false) : nextStringReader.run s = nextStringReader.run s' := bind_congr (h.sev he)
theorem skipNumber (he : s.expectsMemberName = false) : skipNumber.run s = skipNumber.run s' := bind_congr (h.sev he)
theorem nextNumberAsStr (he : s.expectsMemberName = false) : nextNumberAsStr.run s = nextNumberAsStr.run s' := bind_congr (bind_congr (h.sev he))
theorem nextNumberAsString (he : s.expectsMemberName = false) : nextNumberAsString.run s = nextNumberAsString.run s' := bind_congr (bind_congr (h.sev he))
theorem skipValueStart (he : s.expectsMemberName = false) : skipValueStart.run s = skipValueStart.run s' := by
  refine bind_congr ?_
  rw [h.peek he, h.refl.peek (h.emn.trans he)]

theorem endArray (ha : Reader.isInArray s = true) : endArray.run s = endArray.run s' := by
  unfold Reader.endArray
  rw [run_get, run_get, h.isInArray, ha, if_neg (by exact Bool.false_ne_true), M.bind_ok h.pi, M.bind_ok h.pi']

theorem endObject (ha : Reader.isInObject s = true) (he : Reader.expectsMemberValue s = false) : endObject.run s = endObject.run s' := by
  unfold Reader.endObject
  rw [run_get, run_get, h.isInObject, h.expectsMemberValue, ha, he]
  simp only [Bool.not_true, Bool.false_eq_true, if_false]
  rw [M.bind_ok h.pi, M.bind_ok h.pi']

theorem hasNext (he : Reader.expectsMemberValue s = false) (ht : s.stack = [] → s.isEmpty = false ∧ s.settings.allowMultipleTopLevel = true) : hasNext.run s = hasNext.run s' := by
  unfold Reader.hasNext
  rw [run_get, run_get, h.expectsMemberValue, he, if_neg (by exact Bool.false_ne_true), h.stack, h.isEmpty, h.settings]
  cases hs : s.stack with
  | nil =>
    obtain ⟨h1, h2⟩ := ht hs
    rw [h1, h2]
    simp only [List.isEmpty_nil, Bool.not_true, Bool.false_eq_true, if_false, if_true]
    rw [M.bind_ok h.run, M.bind_ok h.run']
  | cons a b =>
    simp only [List.isEmpty_cons, Bool.false_eq_true, if_false]
    exact bind_congr (bind_congr (h.pi.trans h.pi'.symm))

theorem beforeName (he : s.expectsMemberName = true) (ht : s.stack ≠ []) : beforeName.run s = beforeName.run s' := by
  have hm : Reader.expectsMemberValue s = false := by unfold Reader.expectsMemberValue; rw [he]; simp
  unfold Reader.beforeName
  rw [run_get, run_get, h.emn, h.sra, h.sra0, he]
  simp only [Bool.not_true, Bool.false_eq_true, if_false]
  exact bind_congr (h.hasNext hm fun hs => absurd hs ht)

theorem nextName (he : s.expectsMemberName = true) (ht : s.stack ≠ []) : nextName.run s = nextName.run s' := bind_congr (h.beforeName he ht)
theorem nextNameOwned (he : s.expectsMemberName = true) (ht : s.stack ≠ []) : nextNameOwned.run s = nextNameOwned.run s' := bind_congr (h.beforeName he ht)
theorem skipName (he : s.expectsMemberName = true) (ht : s.stack ≠ []) : skipName.run s = skipName.run s' := bind_congr (h.beforeName he ht)

end PeekTo

theorem peekTo_complete (hl : c.LeadFor st p l) (hf : Follow p r) :
    PeekTo p (stp st c pos none (l.bytes ++ (tokBytes p ++ r))) (stp st c (pos.over l.bytes) (some p) r) :=
  ⟨pio_complete hl hf, rfl, rfl, rfl, rfl, rfl, rfl, rfl⟩

/-! ## The first token of a value -/

/-- first token of a value -/
def startOf : Cst → Peeked
  | .null => .null
  | .bool b => if b then .booleanTrue else .booleanFalse
  | .num _ => .numberStart
  | .str _ => .stringStart
  | .arr _ => .arrayStart
  | .obj _ => .objectStart

/-- the bytes behind the first token -/
def tailOf : Cst → Bytes
  | .null => []
  | .bool _ => []
  | .num bs => bs
  | .str x => x.body ++ [0x22]
  | .arr is => is.bytes
  | .obj ms => ms.bytes

theorem start_tail (v : Cst) : v.bytes = tokBytes (startOf v) ++ tailOf v := by
  cases v with
  | bool b => cases b <;> rfl
  | _ => rfl

theorem isValue_start (v : Cst) : isValue (startOf v) = true := by
  cases v with
  | bool b => cases b <;> rfl
  | _ => rfl

theorem isNumber_start {bs : Bytes} (h : IsNumber bs) : ∃ b t, bs = b :: t ∧ isNumStart b := by
  obtain ⟨q, hq, rfl⟩ := h
  unfold NumParts.text NumParts.signText
  cases q.minus with
  | true => exact ⟨_, _, rfl, .inl rfl⟩
  | false =>
    simp only [Bool.false_eq_true, if_false, List.nil_append]
    have hd : ∀ {b : UInt8}, isDigit b = true → isNumStart b := by
      intro b hb
      unfold isDigit at hb
      simp only [Bool.and_eq_true, decide_eq_true_eq, UInt8.le_iff_toNat_le] at hb
      exact .inr hb
    rcases hq.int with h | ⟨d, ds, h, h1, _⟩
    · rw [h]; exact ⟨_, _, rfl, hd (by decide)⟩
    · rw [h]; exact ⟨_, _, rfl, hd h1⟩

theorem follow_start {cfg : Cfg} {v : Cst} (h : v.Ok cfg) (hb : v.isBare = true → SepOk r) : Follow (startOf v) (tailOf v ++ r) := by
  cases v with
  | null => exact hb rfl
  | bool b => cases b <;> exact hb rfl
  | num bs =>
    obtain ⟨b, t, rfl, hn⟩ := isNumber_start h
    exact ⟨b, t ++ r, rfl, hn⟩
  | str => trivial
  | arr => trivial
  | obj => trivial

/-- in front of the value `v` -/
theorem peekTo_value {v : Cst} (hl : c.LeadFor st (startOf v) l) (hv : v.Ok (cfgOf st)) (hb : v.isBare = true → SepOk r) :
    PeekTo (startOf v) (stp st c pos none (l.bytes ++ (v.bytes ++ r))) (stp st c (pos.over l.bytes) (some (startOf v)) (tailOf v ++ r)) := by
  rw [start_tail, List.append_assoc]
  exact peekTo_complete hl (follow_start hv hb)

/-! ## Positions -/

theorem noSplit_head {a b : Bytes} (h : b.head? ≠ some 0x0A) : NoSplit a b := fun _ => h

theorem tokStart_ne_lf {b : UInt8} (h : TokStart b) : b ≠ 0x0A := by
  rintro rfl
  revert h
  unfold TokStart isSp
  decide

theorem value_head {cfg : Cfg} {v : Cst} (h : v.Ok cfg) : v.bytes.head? ≠ some 0x0A := by
  have hf := follow_start (r := []) h fun _ b hb => by cases hb
  obtain ⟨b, t, hb, ht, _⟩ := tok_head hf
  rw [List.append_nil] at hb
  rw [start_tail, hb]
  simpa using tokStart_ne_lf ht

theorem over_value {cfg : Cfg} {v : Cst} (h : v.Ok cfg) (bs : Bytes) : (pos.over bs).over v.bytes = pos.over (bs ++ v.bytes) :=
  Pos.over_over _ (noSplit_head (value_head h))

/-! ## Skipping -/

theorem skipStart_scalar {v : Cst} (h : c.Slot l) (hv : v.Ok (cfgOf st)) (hb : v.isBare = true → SepOk r) (hd : v.depth = 0) :
    skipValueStart.run (stp st c pos (some (startOf v)) (tailOf v ++ r)) = .ok 0 (stp st (c.add l v) (pos.over v.bytes) none r) := by
  have hp : Reader.peek.run (stp st c pos (some (startOf v)) (tailOf v ++ r)) = .ok (typeOf (startOf v)) (stp st c pos (some (startOf v)) (tailOf v ++ r)) := by
    unfold Reader.peek
    rw [run_get, if_neg (by show ¬ c.emn = true; rw [h.emn]; decide), M.bind_ok pi_pk, mapPeeked_value (isValue_start v)]
  unfold skipValueStart
  rw [M.bind_ok hp]
  cases v with
  | null => exact (M.bind_ok (nextNull_ok h)).trans rfl
  | bool b =>
    cases b
    · exact (M.bind_ok (nextBool_ok (b := false) h)).trans rfl
    · exact (M.bind_ok (nextBool_ok (b := true) h)).trans rfl
  | num bs => exact (M.bind_ok (skipNumber_ok h hv (hb rfl))).trans rfl
  | str x =>
    show ((do let _ ← startExpectedValueType .string false; skipAllStringBytes; onValueEnd; pure 0 : R AbsSrc Nat)).run _ = _
    rw [show tailOf (.str x) ++ r = x.body ++ 0x22 :: r by simp [tailOf]]
    rw [show startOf (.str x) = .stringStart from rfl, M.bind_ok (sev_ok (t := .string) (chk := false) h.emn rfl rfl Bool.noConfusion), M.bind_ok (skipAll_complete hv rfl), mv_stp, tok_str, over_str pos hv, M.bind_ok (onValueEnd_run0 (v := .str x) h)]
    rfl
  | arr is => simp [Cst.depth] at hd
  | obj ms => simp [Cst.depth] at hd

/-- the nesting depth of the value is allowed -/
def Fits (st : Settings) (c : Ctx) (depth : Nat) : Prop := ∀ n, st.maxNestingDepth = some n → c.stack.length + depth ≤ n

theorem Fits.tooDeep {n : Nat} (h : Fits st c (n + 1)) : tooDeep st c = none := by
  unfold Abs.tooDeep
  cases hm : st.maxNestingDepth with
  | none => rfl
  | some m =>
    have := h m hm
    exact if_neg (by omega)

mutual
/-- number of iterations of the loop of `skip_value` behind the first token of the value -/
def costV : Cst → Nat
  | .arr is => costI is
  | .obj ms => costM ms
  | _ => 0
def costI : Items → Nat
  | .nil _ => 1
  | .cons _ v rest => costI rest + costV v + 1
def costM : Members → Nat
  | .nil _ => 1
  | .cons _ _ _ _ v rest => costM rest + costV v + 1
end

theorem ws_sepOk {w : Ws} {b : Bool} {x : UInt8} {bs : Bytes} (h : w.Ok b) (hx : isValueSeparator x = true) : SepOk (w.bytes ++ x :: bs) := by
  intro y hy
  cases w with
  | nil => cases hy; exact hx
  | cons i w =>
    have := h i (by simp)
    cases i with
    | space z =>
      cases hy
      rcases this with rfl | rfl | rfl | rfl <;> rfl
    | line => cases hy; rfl
    | block => cases hy; rfl

theorem sep_sepOk {cfg : Cfg} {sp : Sep} {bs : Bytes} (h : sp.Ok cfg false) : SepOk (sp.bytes ++ bs) := by
  cases sp with
  | plain w => cases h.1
  | comma w1 w2 =>
    show SepOk ((w1.bytes ++ 0x2C :: w2.bytes) ++ bs)
    rw [List.append_assoc, List.cons_append]
    exact ws_sepOk h.2.1 rfl

theorem sepEnd_sepOk {cfg : Cfg} {sp : Sep} {x : UInt8} {bs : Bytes} (h : sp.OkEnd cfg false) (hx : isValueSeparator x = true) : SepOk (sp.bytes ++ x :: bs) := by
  cases sp with
  | plain w => exact ws_sepOk h hx
  | comma w1 w2 =>
    show SepOk ((w1.bytes ++ 0x2C :: w2.bytes) ++ _)
    rw [List.append_assoc, List.cons_append]
    exact ws_sepOk h.2.2.1 rfl

theorem items_sepOk {cfg : Cfg} {is : Items} {bs : Bytes} (h : is.Ok cfg false) : SepOk (is.bytes ++ bs) := by
  cases is with
  | nil close =>
    rw [Items.bytes, List.append_assoc]
    exact sepEnd_sepOk h rfl
  | cons sp v rest =>
    rw [Items.bytes, List.append_assoc]
    exact sep_sepOk h.1

theorem members_sepOk {cfg : Cfg} {ms : Members} {bs : Bytes} (h : ms.Ok cfg false) : SepOk (ms.bytes ++ bs) := by
  cases ms with
  | nil close =>
    rw [Members.bytes, List.append_assoc]
    exact sepEnd_sepOk h rfl
  | cons sp n w1 w2 v rest =>
    rw [Members.bytes, List.append_assoc]
    exact sep_sepOk h.1

/-- rest of an iteration of the loop of `skip_value` -/
def skipRest (fuel d : Nat) : R AbsSrc Unit := do
  let k ← skipValueStart
  if d + k == 0 then pure () else skipValueLoop fuel (d + k)

/-- what is done after the value -/
def skipFinish (d fuel : Nat) (s : St) : Res RErr St Unit := if d = 0 then .ok () s else (skipValueLoop fuel d).run s

theorem skipLoop_top {n : Nat} (he : s.expectsMemberName = false) : (skipValueLoop (n + 1) 0).run s = (skipRest n 0).run s := by
  show (atContainerEnd 0 >>= _).run s = _
  refine (M.bind_ok (a := false) (s' := s) rfl).trans ?_
  unfold skipRest
  rw [M.run_bind, M.run_bind]
  simp only [Bool.false_eq_true, if_false]
  rw [M.bind_ok (a := ()) (s' := s) (by unfold skipNameIfExpected; rw [run_get, he]; rfl), M.run_bind]
  cases skipValueStart.run s <;> rfl

theorem skipLoop_end {n d : Nat} (hn : hasNext.run s = .ok false s') (he : endContainer.run s' = .ok () s'') : (skipValueLoop (n + 1) (d + 1)).run s = skipFinish d n s'' := by
  show (atContainerEnd (d + 1) >>= _).run s = _
  have h1 : (atContainerEnd (d + 1)).run s = .ok true s' := by
    unfold atContainerEnd
    exact (M.bind_ok hn).trans rfl
  rw [M.bind_ok h1]
  refine (M.bind_ok (a := d) (s' := s'') ((M.bind_ok he).trans rfl)).trans ?_
  unfold skipFinish
  cases d <;> rfl

theorem skipLoop_value {n d : Nat} (hn : hasNext.run s = .ok true s') (hs : skipNameIfExpected.run s' = .ok () s'') :
    (skipValueLoop (n + 1) (d + 1)).run s = (skipRest n (d + 1)).run s'' := by
  show (atContainerEnd (d + 1) >>= _).run s = _
  have h1 : (atContainerEnd (d + 1)).run s = .ok false s' := by
    unfold atContainerEnd
    exact (M.bind_ok hn).trans rfl
  rw [M.bind_ok h1]
  unfold skipRest
  rw [M.run_bind, M.run_bind]
  simp only [Bool.false_eq_true, if_false]
  rw [M.bind_ok hs, M.run_bind]
  cases skipValueStart.run s'' <;> rfl

theorem hasNext_arr_c {up : Ctx} {lu : Lead} {done : List (Sep × Cst)} (hl : (Ctx.arr up lu done).LeadFor st p l) (hf : Follow p r) :
    hasNext.run (stp st (.arr up lu done) pos none (l.bytes ++ (tokBytes p ++ r))) = .ok (!isEnd p) (stp st (.arr up lu done) (pos.over l.bytes) (some p) r) := by
  rw [(peekTo_complete hl hf).hasNext rfl nofun]
  exact hasNext_arr hl.allows

theorem hasNext_obj_c {up : Ctx} {lu : Lead} {done : List Mem} (hl : (Ctx.obj up lu done).LeadFor st p l) (hf : Follow p r) :
    hasNext.run (stp st (.obj up lu done) pos none (l.bytes ++ (tokBytes p ++ r))) = .ok (!isEnd p) (stp st (.obj up lu done) (pos.over l.bytes) (some p) r) := by
  rw [(peekTo_complete hl hf).hasNext rfl nofun]
  exact hasNext_obj hl.allows

theorem isEnd_start (v : Cst) : isEnd (startOf v) = false := by
  cases v with
  | bool b => cases b <;> rfl
  | _ => rfl

theorem Fits.mono {c' : Ctx} {m n : Nat} (h : Fits st c n) (hc : c'.stack.length + m ≤ c.stack.length + n) : Fits st c' m := fun k hk => Nat.le_trans hc (h k hk)

mutual
theorem skipRest_value (v : Cst) : ∀ {c : Ctx} {l : Lead} {pos : Pos} {r : Bytes} {n d : Nat}, c.Slot l → v.Ok (cfgOf st) → Fits st c v.depth → (v.isBare = true → SepOk r) →
    (skipRest (n + costV v) d).run (stp st c pos (some (startOf v)) (tailOf v ++ r)) = skipFinish d n (stp st (c.add l v) (pos.over v.bytes) none r) := by
  intro c l pos r n d hs hv hf hb
  have scalar : v.depth = 0 → costV v = 0 → (skipRest (n + costV v) d).run (stp st c pos (some (startOf v)) (tailOf v ++ r)) = skipFinish d n (stp st (c.add l v) (pos.over v.bytes) none r) := by
    intro h0 h1
    unfold skipRest
    rw [M.bind_ok (skipStart_scalar hs hv hb h0), h1]
    cases d <;> rfl
  cases v with
  | null => exact scalar rfl rfl
  | bool b => exact scalar rfl rfl
  | num bs => exact scalar rfl rfl
  | str x => exact scalar rfl rfl
  | arr is =>
    unfold skipRest
    have h1 : skipValueStart.run (stp st c pos (some .arrayStart) (is.bytes ++ r)) = .ok 1 (stp st (.arr c l []) (pos.over [0x5B]) none (is.bytes ++ r)) := by
      unfold skipValueStart
      rw [M.bind_ok (a := ValueType.array) (s' := stp st c pos (some .arrayStart) (is.bytes ++ r))]
      · exact (M.bind_ok (beginArray_ok hs hf.tooDeep)).trans rfl
      · unfold Reader.peek
        rw [run_get, if_neg (by show ¬ c.emn = true; rw [hs.emn]; decide), M.bind_ok pi_pk]
        rfl
    rw [show startOf (.arr is) = .arrayStart from rfl, show tailOf (.arr is) = is.bytes from rfl, M.bind_ok h1]
    rw [if_neg (by simp)]
    rw [show n + costV (.arr is) = n + costI is from rfl]
    refine (skipLoop_items is (V := .arr is) (done := []) hs hv (hf.mono (by simp [Ctx.stack, Cst.depth]; omega))).trans ?_
    rw [Pos.over_over _ (plain_cons (by decide) plain_nil : Plain [0x5B]).noBreak.left]
    rfl
  | obj ms =>
    unfold skipRest
    have h1 : skipValueStart.run (stp st c pos (some .objectStart) (ms.bytes ++ r)) = .ok 1 (stp st (.obj c l []) (pos.over [0x7B]) none (ms.bytes ++ r)) := by
      unfold skipValueStart
      rw [M.bind_ok (a := ValueType.object) (s' := stp st c pos (some .objectStart) (ms.bytes ++ r))]
      · exact (M.bind_ok (beginObject_ok hs hf.tooDeep)).trans rfl
      · unfold Reader.peek
        rw [run_get, if_neg (by show ¬ c.emn = true; rw [hs.emn]; decide), M.bind_ok pi_pk]
        rfl
    rw [show startOf (.obj ms) = .objectStart from rfl, show tailOf (.obj ms) = ms.bytes from rfl, M.bind_ok h1]
    rw [if_neg (by simp)]
    rw [show n + costV (.obj ms) = n + costM ms from rfl]
    refine (skipLoop_members ms (V := .obj ms) (done := []) hs hv (hf.mono (by simp [Ctx.stack, Cst.depth]; omega))).trans ?_
    rw [Pos.over_over _ (plain_cons (by decide) plain_nil : Plain [0x7B]).noBreak.left]
    rfl
theorem skipLoop_items (is : Items) : ∀ {up : Ctx} {lu : Lead} {done : List (Sep × Cst)} {pos : Pos} {r : Bytes} {n d : Nat} {V : Cst}, up.Slot lu → is.Ok (cfgOf st) done.isEmpty →
    Fits st (.arr up lu done) is.depth →
    (skipValueLoop (n + costI is) (d + 1)).run (stp st (.arr up lu done) pos none (is.bytes ++ r)) = skipFinish d n (stp st (up.add lu V) (pos.over is.bytes) none r) := by
  intro up lu done pos r n d V hs hok hf
  cases is with
  | nil close =>
    have hn := hasNext_arr_c (st := st) (up := up) (lu := lu) (done := done) (pos := pos) (p := .arrayEnd) (l := .sep close) (r := r) (.inl ⟨rfl, hok⟩) trivial
    rw [show (Items.nil close).bytes ++ r = (Lead.sep close).bytes ++ (tokBytes .arrayEnd ++ r) by simp [Items.bytes, Lead.bytes, tokBytes]]
    refine (skipLoop_end hn (s'' := stp st (up.add lu V) ((pos.over close.bytes).over [0x5D]) none r) ?_).trans ?_
    · exact endArray_ok hs
    · rw [Pos.over_over _ (noSplit_head (by simp))]
      rfl
  | cons sp v rest =>
    obtain ⟨h1, h2, h3⟩ := hok
    have hb : v.isBare = true → SepOk (rest.bytes ++ r) := fun _ => items_sepOk h3
    have hn := hasNext_arr_c (st := st) (up := up) (lu := lu) (done := done) (pos := pos) (p := startOf v) (l := .sep sp) (r := tailOf v ++ (rest.bytes ++ r)) (.inr ⟨isValue_start v, h1⟩) (follow_start h2 hb)
    rw [isEnd_start] at hn
    have he : (Items.cons sp v rest).bytes ++ r = (Lead.sep sp).bytes ++ (tokBytes (startOf v) ++ (tailOf v ++ (rest.bytes ++ r))) := by
      simp only [Items.bytes, Lead.bytes, start_tail, List.append_assoc]
    rw [he, show n + costI (.cons sp v rest) = n + costI rest + costV v + 1 by simp only [costI]; omega]
    refine (skipLoop_value hn rfl).trans ?_
    rw [skipRest_value v (c := .arr up lu done) (l := .sep sp) trivial h2 (hf.mono (by simp [Items.depth]; omega)) hb]
    refine (skipLoop_items rest (V := V) hs (by rw [show (done ++ [(sp, v)]).isEmpty = false by simp]; exact h3) (hf.mono (by simp [Items.depth, Ctx.stack]; omega))).trans ?_
    rw [over_value h2, Pos.over_over _ (noCr_append (Cst.noCr h2).2 (Cst.noCr h2).1).noSplit]
    simp only [Items.bytes, Lead.bytes, List.append_assoc]
theorem skipLoop_members (ms : Members) : ∀ {up : Ctx} {lu : Lead} {done : List Mem} {pos : Pos} {r : Bytes} {n d : Nat} {V : Cst}, up.Slot lu → ms.Ok (cfgOf st) done.isEmpty →
    Fits st (.obj up lu done) ms.depth →
    (skipValueLoop (n + costM ms) (d + 1)).run (stp st (.obj up lu done) pos none (ms.bytes ++ r)) = skipFinish d n (stp st (up.add lu V) (pos.over ms.bytes) none r) := by
  intro up lu done pos r n d V hs hok hf
  cases ms with
  | nil close =>
    have hn := hasNext_obj_c (st := st) (up := up) (lu := lu) (done := done) (pos := pos) (p := .objectEnd) (l := .sep close) (r := r) (.inl ⟨rfl, hok⟩) trivial
    rw [show (Members.nil close).bytes ++ r = (Lead.sep close).bytes ++ (tokBytes .objectEnd ++ r) by simp [Members.bytes, Lead.bytes, tokBytes]]
    refine (skipLoop_end hn (s'' := stp st (up.add lu V) ((pos.over close.bytes).over [0x7D]) none r) ?_).trans ?_
    · exact endObject_ok hs
    · rw [Pos.over_over _ (noSplit_head (by simp))]
      rfl
  | cons sp x w1 w2 v rest =>
    obtain ⟨h1, hx, hw1, hw2, h2, h3⟩ := hok
    have hb : v.isBare = true → SepOk (rest.bytes ++ r) := fun _ => members_sepOk h3
    have hn := hasNext_obj_c (st := st) (up := up) (lu := lu) (done := done) (pos := pos) (p := .nameStart) (l := .sep sp)
      (r := x.body ++ 0x22 :: (w1.bytes ++ (0x3A :: (w2.bytes ++ (v.bytes ++ (rest.bytes ++ r)))))) (.inr ⟨rfl, h1⟩) trivial
    have he : (Members.cons sp x w1 w2 v rest).bytes ++ r = (Lead.sep sp).bytes ++ (tokBytes .nameStart ++ (x.body ++ 0x22 :: (w1.bytes ++ (0x3A :: (w2.bytes ++ (v.bytes ++ (rest.bytes ++ r))))))) := by
      simp [Members.bytes, Lead.bytes, Str.bytes, tokBytes]
    rw [he, show n + costM (.cons sp x w1 w2 v rest) = n + costM rest + costV v + 1 by simp only [costM]; omega]
    refine (skipLoop_value hn (s'' := stp st (.val up lu done sp x) ((pos.over sp.bytes).over x.bytes) none (w1.bytes ++ (0x3A :: (w2.bytes ++ (v.bytes ++ (rest.bytes ++ r)))))) ?_).trans ?_
    · unfold skipNameIfExpected
      rw [run_get]
      exact skipName_ok hx
    have hp := peekTo_value (st := st) (c := .val up lu done sp x) (l := .colon w1 w2) (pos := (pos.over sp.bytes).over x.bytes) (v := v) (r := rest.bytes ++ r) ⟨isValue_start v, hw1, hw2⟩ h2 hb
    rw [show (Lead.colon w1 w2).bytes ++ (v.bytes ++ (rest.bytes ++ r)) = w1.bytes ++ (0x3A :: (w2.bytes ++ (v.bytes ++ (rest.bytes ++ r)))) by simp [Lead.bytes]] at hp
    refine (bind_congr (hp.skipValueStart rfl)).trans ?_
    refine (skipRest_value v (c := .val up lu done sp x) (l := .colon w1 w2) trivial h2 (hf.mono (by simp [Members.depth, Ctx.stack]; omega)) hb).trans ?_
    refine (skipLoop_members rest (V := V) hs (by rw [show (done ++ [(⟨sp, x, w1, w2, v⟩ : Mem)]).isEmpty = false by simp]; exact h3) (hf.mono (by simp [Members.depth, Ctx.stack]; omega))).trans ?_
    have hx0 : x.bytes.head? ≠ some 0x0A := by simp [Str.bytes]
    rw [over_value h2, Pos.over_over pos (noSplit_head hx0), Pos.over_over _ (noCr_append (by simp [Str.bytes]) (str_noCr x)).noSplit, Pos.over_over _]
    · simp [Members.bytes, Lead.bytes]
    · refine (noCr_append ?_ (noCr_append (Cst.noCr h2).2 (Cst.noCr h2).1)).noSplit
      simp [(Cst.noCr h2).2]
end

end
end Verif.Abs
