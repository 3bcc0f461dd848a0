import Verif.Proofs.Abs.WhereOps
import Verif.Proofs.Abs.Keeps
import Verif.Model.Run
/-! # Locations of errors: methods and sequences of method calls -/

namespace Verif.Where
open Reader Utf8 Json ErrorLocation Abs

section
variable {F : Fr} {x y d : Bytes} {pk : Option Peeked} {s s' : St} {α β : Type}

/-! ## Methods which read at most one token -/

/-- such a method -/
def One (m : R AbsSrc α) : Prop := ∀ {F : Fr} {x y : Bytes} {pk : Option Peeked} {s : St}, Ready F x y pk s → Wp m s (fun _ s' => Nx F s') (EL F)

theorem Ready.nx (h : Ready F x y pk s) : Nx F s := ⟨F.path, F.behind, x, y, pk, h⟩

theorem Ready.startStr {e : ValueType} (h : Ready F x y pk s) :
    Wp (startExpectedValueType e false) s (fun p s' => typeOf p = some e ∧ Str1 F s') (EL F) :=
  (h.start (fun h => by cases h)).post fun _ _ ⟨h1, x, y, h2, h3, _⟩ => ⟨h1, x, y, h2, h3⟩

theorem one_peek : One Reader.peek := by
  intro F x y pk s h
  unfold Reader.peek
  refine Wp.get (Wp.ite (fun _ => usage_wp) fun _ => ?_)
  refine Wp.bind' h.peek ?_
  rintro p s1 ⟨x1, y1, h1⟩
  refine h1.mapPeeked.post ?_
  rintro _ _ ⟨rfl, _⟩
  exact h1.nx

theorem one_begin {e : ValueType} {v : StackValue} {g : St → St} (he : e = .array ∨ e = .object)
    (hg : ∀ s, SameAt s (g { s with stack := v :: s.stack, isEmpty := true })) : One (do onContainerStart e v; M.modify g) := by
  intro F x y pk s h
  unfold onContainerStart
  refine Wp.bind (Wp.bind' (h.start fun _ => he) ?_)
  rintro p s1 ⟨_, x1, y1, h1, hn1, _⟩
  exact Wp.modify (Wp.modify (Str1.same ⟨x1, y1, h1, hn1⟩ (hg s1)))

theorem one_beginArray : One Reader.beginArray := one_begin (.inl rfl) fun _ => ⟨rfl, rfl, rfl, rfl, rfl, fun _ h => by cases h⟩
theorem one_beginObject : One Reader.beginObject := one_begin (.inr rfl) fun _ => ⟨rfl, rfl, rfl, rfl, rfl, fun _ _ => rfl⟩

theorem notEnd {p : Peeked} {r : Bytes} (h : Follow p r) (h1 : p ≠ .arrayEnd) (h2 : p ≠ .objectEnd) : Head (fun b => b ≠ 0x5D ∧ b ≠ 0x7D) (tokBytes p ++ r) := by
  cases p
  case numberStart =>
    obtain ⟨b, t, rfl, hb⟩ := h
    refine ⟨b, t, rfl, ?_, ?_⟩
    · rintro rfl; revert hb; unfold isNumStart; decide
    · rintro rfl; revert hb; unfold isNumStart; decide
  case arrayEnd => exact absurd rfl h1
  case objectEnd => exact absurd rfl h2
  all_goals exact ⟨_, _, rfl, by decide, by decide⟩

theorem array_not_object {s : St} (h : isInArray s = true) : ¬ isInObject s = true := by
  unfold isInArray at h
  unfold isInObject
  rw [eq_of_beq h]
  decide

theorem Wp.true {ε S α : Type} {m : M ε S α} {s : S} {Q : α → S → Prop} (h : ∀ a s', m.run s = .ok a s' → Q a s') : Wp m s Q (fun _ _ => True) := by
  unfold Wp
  cases hm : m.run s with
  | ok a s' => exact h a s' hm
  | err e s' => trivial

theorem ctx_optional : Wp peekInternalOptional s (fun _ s' => s'.stack = s.stack ∧ s'.expectsMemberName = s.expectsMemberName) (fun _ _ => True) := by
  refine Wp.true fun o s' h => ?_
  rcases pio_ok h with h | ⟨rfl, _⟩
  · exact ⟨h.stack, h.emn⟩
  · exact ⟨rfl, rfl⟩

theorem ctx_peek : Wp peekInternal s (fun _ s' => s'.stack = s.stack ∧ s'.expectsMemberName = s.expectsMemberName) (fun _ _ => True) := by
  unfold peekInternal
  refine Wp.bind' ctx_optional ?_
  rintro (_ | p) s1 h1
  · exact Wp.get (Wp.ite (fun _ => Wp.of_err rfl trivial) fun _ => Wp.of_err rfl trivial)
  · exact Wp.pure h1

theorem Ready.peekCtx (h : Ready F x y pk s) : Wp peekInternal s (fun p s' => (∃ x' y', Ready F x' y' (some p) s') ∧ s'.stack = s.stack ∧ s'.expectsMemberName = s.expectsMemberName) (EL F) :=
  (wp_and h.peek ctx_peek).mono (fun _ _ h => h) fun _ _ h => h.1

theorem Ready.consumeCtx {p : Peeked} (h : Ready F x y (some p) s) :
    Wp consumePeeked s (fun _ s' => Str1 F s' ∧ s'.stack = s.stack ∧ s'.expectsMemberName = s.expectsMemberName) (EL F) := by
  refine (wp_and h.consume (E' := fun _ _ => True) (Q' := fun _ s' => s'.stack = s.stack ∧ s'.expectsMemberName = s.expectsMemberName) (Wp.true fun _ s' hr => ?_)).mono ?_ fun _ _ h => h.1
  · unfold consumePeeked at hr
    rw [run_get, h.peeked] at hr
    cases hr
    exact ⟨rfl, rfl⟩
  · rintro _ s' ⟨⟨x, y, h1, h2, _⟩, h3⟩
    exact ⟨⟨x, y, h1, h2⟩, h3⟩

theorem one_endArray : One Reader.endArray := by
  intro F x y pk s h
  unfold Reader.endArray
  refine Wp.get (Wp.ite (fun _ => usage_wp) fun ha => ?_)
  refine Wp.bind' h.peekCtx ?_
  rintro p s1 ⟨⟨x1, y1, h1⟩, hs, _⟩
  have hna : s1.expectsMemberName = false := by
    refine Bool.eq_false_iff.2 fun hm => ?_
    refine array_not_object (s := s1) ?_ (h1.obj hm)
    unfold isInArray
    rw [hs]
    exact (by simpa using ha : isInArray s = true)
  refine Wp.ite (fun hp => Wp.of_err rfl (h1.el rfl ?_)) fun hp => ?_
  · rw [h1.rest]
    refine notEnd (h1.follow _ rfl) (by simpa using hp) ?_
    rintro rfl
    rw [h1.objEnd rfl] at hna
    cases hna
  · refine Wp.bind' h1.consumeCtx ?_
    rintro _ s2 ⟨h2, _, he2⟩
    exact (onContainerEnd_wp (he2.trans hna)).post fun _ _ e => h2.same e

theorem one_endObject : One Reader.endObject := by
  intro F x y pk s h
  unfold Reader.endObject
  refine Wp.get (Wp.ite (fun _ => usage_wp) fun ho => Wp.ite (fun _ => usage_wp) fun hv => ?_)
  have hm : s.expectsMemberName = true := by
    unfold expectsMemberValue at hv
    revert ho hv
    cases isInObject s <;> cases s.expectsMemberName <;> simp
  refine Wp.bind' h.peekCtx ?_
  rintro p s1 ⟨⟨x1, y1, h1⟩, hs, he⟩
  refine Wp.ite (fun hp => Wp.of_err rfl (h1.el rfl ?_)) fun hp => ?_
  · rw [h1.rest]
    refine notEnd (h1.follow _ rfl) ?_ (by simpa using hp)
    rintro rfl
    have := h1.arrEnd rfl
    rw [he, hm] at this
    cases this
  · refine Wp.bind' h1.consumeCtx ?_
    rintro _ s2 ⟨h2, _, he2⟩
    refine Wp.bind (Wp.modify ?_)
    refine (onContainerEnd_wp rfl).post fun _ s' e => ?_
    obtain ⟨x2, y2, h3, hn3⟩ := h2
    have h4 : Str1 F { s2 with expectsMemberName := false } := ⟨x2, y2, ⟨h3.inp, h3.rest, h3.pos, h3.peeked, h3.path, h3.behind, h3.st, h3.lo, h3.term, fun h => by cases h⟩, hn3⟩
    exact h4.same e

/-- end of the input or of an array or object -/
def AtEnd (y : Bytes) : Prop := y = [] ∨ Head (fun b => b = 0x5D ∨ b = 0x7D) y

theorem Ready.hasNext (h : Ready F x y pk s) : Wp Reader.hasNext s (fun b s' => ∃ x' y' pk', Ready F x' y' pk' s' ∧ (b = false → AtEnd y') ∧ (b = true → pk' ≠ none)) (EL F) := by
  have fin : ∀ {o : Option Peeked} {s1 : St}, (∃ x' y', Ready F x' y' o s1 ∧ (o = none → y' = [])) → Wp (match o with
      | none => pure false
      | some p => do
        let s ← M.get
        if !(!s.expectsMemberName || p == .nameStart || p == .objectEnd) then internalPanic .debugAssert
        else pure (p != .arrayEnd && p != .objectEnd)) s1 (fun b s' => ∃ x' y' pk', Ready F x' y' pk' s' ∧ (b = false → AtEnd y') ∧ (b = true → pk' ≠ none)) (EL F) := by
    rintro o s1 ⟨x1, y1, h1, ho⟩
    cases o with
    | none => exact Wp.pure ⟨x1, y1, none, h1, fun _ => .inl (ho rfl), fun h => by cases h⟩
    | some p =>
      refine Wp.get (Wp.ite (fun _ => internal_wp) fun _ => Wp.pure ⟨x1, y1, some p, h1, fun hb => .inr ?_, fun _ => by simp⟩)
      rw [h1.rest]
      by_cases ha : p = .arrayEnd
      · subst ha; exact ⟨_, _, rfl, .inl rfl⟩
      · by_cases hb' : p = .objectEnd
        · subst hb'; exact ⟨_, _, rfl, .inr rfl⟩
        · simp [ha, hb'] at hb
  unfold Reader.hasNext
  refine Wp.get (Wp.ite (fun _ => usage_wp) fun _ => ?_)
  refine Wp.ite_bind (fun _ => Wp.ite_bind (fun _ => Wp.bind usage_wp) fun _ => Wp.ite_bind (fun _ => Wp.bind usage_wp) fun _ => ?_) fun _ => ?_
  · exact Wp.bind' h.peekOptional fun o s1 h1 => fin h1
  · refine Wp.bind (Wp.bind' h.peek ?_)
    rintro p s1 ⟨x1, y1, h1⟩
    exact Wp.pure (fin (o := some p) ⟨x1, y1, h1, fun h => by cases h⟩)

theorem one_hasNext : One Reader.hasNext := fun h => h.hasNext.post fun _ _ ⟨_, _, _, h, _⟩ => h.nx

theorem Ready.atEnd (h : Ready F x y pk s) (hy : AtEnd y) {k : StructureKind} (hk : k ≠ .moreElementsThanExpected) {Q : α → St → Prop} : Wp (structureErr k) s Q (EL F) := by
  refine Wp.of_err rfl (h.el rfl ?_)
  cases k <;> first | exact absurd rfl hk | exact hy

theorem Ready.beforeName (h : Ready F x y pk s) : Wp Reader.beforeName s (fun _ s' => Str1 F s') (EL F) := by
  unfold Reader.beforeName
  refine Wp.get (Wp.ite (fun _ => usage_wp) fun _ => Wp.ite (fun _ => usage_wp) fun _ => ?_)
  refine Wp.bind' h.hasNext ?_
  rintro b s1 ⟨x1, y1, pk1, h1, hb, hb'⟩
  refine Wp.ite (fun hb1 => ?_) fun hb1 => h1.atEnd (hb (by simpa using hb1)) (by decide)
  obtain ⟨p, rfl⟩ := Option.ne_none_iff_exists'.1 (hb' hb1)
  refine Wp.bind (Wp.modify ?_)
  -- the flag is not used by the rest
  unfold consumePeeked
  refine Wp.get ?_
  rw [show ({ s1 with expectsMemberName := false } : St).peeked = some p from h1.peeked]
  refine Wp.bind (Wp.pure (Wp.set ?_))
  have hpos : posOf (x1 ++ tokBytes p) = ⟨s1.line, s1.column + peekedLength p, s1.bytePos + peekedLength p⟩ := by
    rw [posOf_plain (tok_plain p), ← h1.pos, tok_length]
    rfl
  refine ⟨x1 ++ tokBytes p, s1.src.rest, ⟨?_, rfl, hpos.symm, rfl, h1.path, h1.behind, h1.st, Nat.le_trans h1.lo (by rw [List.length_append]; omega), h1.term, fun h => by cases h⟩, ?_⟩
  · rw [h1.inp, h1.rest, List.append_assoc]; rfl
  · have := h1.split
    rw [h1.rest] at this
    exact noSplit_plain (tok_plain p) this

theorem one_nextNameOwned : One Reader.nextNameOwned := by
  intro F x y pk s h
  unfold Reader.nextNameOwned
  refine Wp.bind' h.beforeName fun _ s1 h1 => Wp.bind' (str1_readString h1) fun _ s2 h2 => ?_
  refine Wp.bind' (getStr_wp (F := F)) ?_
  rintro name s3 ⟨e3, _⟩
  refine Wp.bind' (setPathName_wp (F := F)) fun _ s4 e4 => Wp.pure (h2.same (e3.trans e4))

theorem one_nextName : One Reader.nextName := by
  intro F x y pk s h
  unfold Reader.nextName
  refine Wp.bind' h.beforeName fun _ s1 h1 => Wp.bind' (str1_readString h1) fun _ s2 h2 => ?_
  refine Wp.get (Wp.ite_bind (fun _ => ?_) fun _ => ?_)
  · refine Wp.bind (Wp.bind' (getStrPeek_wp (F := F)) fun name s3 e3 => ?_)
    refine (setPathName_wp (F := F)).post fun _ s4 e4 => ?_
    exact (getStr_wp (F := F)).post fun _ s5 e5 => h2.same ((e3.trans e4).trans e5.1)
  · exact Wp.bind (Wp.pure ((getStr_wp (F := F)).post fun _ s5 e5 => h2.same e5.1))

theorem one_skipName : One Reader.skipName := by
  intro F x y pk s h
  unfold Reader.skipName
  refine Wp.bind' h.beforeName fun _ s1 h1 => Wp.get (Wp.ite (fun _ => ?_) fun _ => ?_)
  · refine Wp.bind' (str1_readString h1) fun _ s2 h2 => Wp.bind' (getStr_wp (F := F)) ?_
    rintro name s3 ⟨e3, _⟩
    exact (setPathName_wp (F := F)).post fun _ s4 e4 => h2.same (e3.trans e4)
  · exact (str1_skipAll h1).post fun _ _ h => h.nx

theorem one_nextBool : One Reader.nextBool := by
  intro F x y pk s h
  unfold Reader.nextBool
  refine Wp.bind' h.startStr ?_
  rintro p s1 ⟨_, h1⟩
  have fin : ∀ b : Bool, Wp (do onValueEnd; pure b) s1 (fun _ s' => Nx F s') (EL F) := fun b => Wp.bind' (onValueEnd_wp (F := F)) fun _ _ e => Wp.pure (h1.same e)
  cases p <;> first | exact Wp.bind (Wp.pure (fin _)) | exact Wp.bind internal_wp

theorem one_nextNull : One Reader.nextNull := by
  intro F x y pk s h
  unfold Reader.nextNull
  refine Wp.bind' h.startStr ?_
  rintro p s1 ⟨_, h1⟩
  exact (onValueEnd_wp (F := F)).post fun _ _ e => h1.same e

theorem one_nextString : One Reader.nextString := by
  intro F x y pk s h
  unfold Reader.nextString
  refine Wp.bind' h.startStr ?_
  rintro p s1 ⟨_, h1⟩
  refine Wp.bind' (str1_readString h1) fun _ s2 h2 => Wp.bind' (getStr_wp (F := F)) ?_
  rintro t s3 ⟨e3, _⟩
  exact Wp.bind' (onValueEnd_wp (F := F)) fun _ _ e => Wp.pure (h2.same (e3.trans e))

theorem one_nextStr : One Reader.nextStr := by
  intro F x y pk s h
  unfold Reader.nextStr
  refine Wp.bind' h.startStr ?_
  rintro p s1 ⟨_, h1⟩
  refine Wp.bind' (str1_readString h1) fun _ s2 h2 => Wp.bind' (onValueEnd_wp (F := F)) fun _ s3 e3 => ?_
  exact (getStr_wp (F := F)).post fun _ _ e => h2.same (e3.trans e.1)

theorem one_readNumberBytes {rq : Bool} : One (readNumberBytes rq) := by
  intro F x y pk s h
  unfold readNumberBytes
  refine Wp.bind' (h.start (fun h => by cases h)) ?_
  rintro p s1 ⟨ht, x1, y1, h1, hn1, hf⟩
  have hp : p = .numberStart := by cases p <;> first | rfl | cases ht
  subst hp
  refine Wp.bind' (h1.consumeNumber (keep := true) (s1 := setAcc s1 []) hf rfl (.inl rfl) vConsume_cons vPeek_run) ?_
  rintro ⟨k, n⟩ s2 ⟨bs, hbs, hl, h2, hacc, hst⟩
  have hl : n = bs.length := hl
  subst hl
  refine Wp.get (Wp.ite (fun _ => ?_) fun _ => ?_)
  · refine Wp.bind_ok (a := ()) (s' := s2) rfl (Wp.bind' (getStr_acc (F := F)) ?_)
    rintro number _ ⟨rfl, hnum⟩
    refine Wp.get (Wp.fail ⟨?_, fun _ h => by cases h⟩)
    refine (h2.acc []).wh rfl rfl ?_
    show enc number <+: y1
    rw [hnum, hacc rfl]
    exact ⟨s2.src.rest, h2.rest.symm⟩
  · exact Wp.bind_ok (a := ()) (s' := s2) rfl (h2.finishNumber hn1 hbs hst)

theorem one_skipNumber : One skipNumber := by
  intro F x y pk s h
  unfold skipNumber
  refine Wp.bind' (h.start (fun h => by cases h)) ?_
  rintro p s1 ⟨ht, x1, y1, h1, hn1, hf⟩
  have hp : p = .numberStart := by cases p <;> first | rfl | cases ht
  subst hp
  refine Wp.bind' (h1.consumeNumber (keep := false) (s1 := s1) hf rfl (.inr rfl) skipPeekedByte_cons peekByte_run) ?_
  rintro ⟨k, n⟩ s2 ⟨bs, hbs, hl, h2, hacc, hst⟩
  have hl : n = bs.length := hl
  subst hl
  exact h2.finishNumber hn1 hbs hst

theorem Nx.acc (h : Nx F s) (a : Bytes) : Nx F (setAcc s a) := by
  obtain ⟨p, b, x, y, pk, h⟩ := h
  exact ⟨p, b, x, y, pk, h.toAt.acc a, h.split, h.follow, h.objEnd, h.arrEnd, h.multi⟩

theorem one_get {m : R AbsSrc Unit} (h : One m) : One (do m; liftS AbsSrc.getStr) := by
  intro F x y pk s hr
  refine Wp.bind' (h hr) fun _ s1 h1 => ?_
  refine (getStr_acc (F := F)).post ?_
  rintro _ _ ⟨rfl, _⟩
  exact h1.acc _

/-! ## The string value reader -/

theorem strConsume_wp {len : Nat} : ∀ {bs : Bytes} {sr : StrReader} {out : Bytes}, Wp (strConsume len bs sr out) s (fun r s' => s' = s ∧ r.1.reachedEnd = sr.reachedEnd) (EL F) := by
  intro bs
  induction bs with
  | nil => intro sr out; exact Wp.pure ⟨rfl, rfl⟩
  | cons b bs ih =>
    intro sr out
    unfold strConsume
    exact Wp.ite (fun _ => ih) fun _ => Wp.ite (fun _ => ih (sr := { sr with utf8Buf := sr.utf8Buf.set sr.utf8Count b, utf8Count := sr.utf8Count + 1 })) fun _ => internal_wp

/-- state of the string value reader -/
def SrOk (F : Fr) (sr : StrReader) (s : St) : Prop := Nx F s ∧ (sr.reachedEnd = false → Str1 F s)

theorem Str1.sra (h : Str1 F s) (b : Bool) : Str1 F { s with stringReaderActive := b } := by
  obtain ⟨x, y, h, hn⟩ := h
  exact ⟨x, y, ⟨h.inp, h.rest, h.pos, h.peeked, h.path, h.behind, h.st, h.lo, h.term, h.obj⟩, hn⟩

theorem strReadLoop_wp {len : Nat} : ∀ {f : Nat} {sr : StrReader} {out : Bytes} {s : St}, Str1 F s → sr.reachedEnd = false → Wp (strReadLoop len f sr out) s (fun r s' => SrOk F r.1 s') (EL F) := by
  intro f
  induction f with
  | zero =>
    intro sr out s h hr
    unfold strReadLoop
    exact Wp.ite (fun _ => Wp.of_err rfl .fuel) fun _ => Wp.pure ⟨h.nx, fun _ => h⟩
  | succ f ih =>
    intro sr out s h hr
    unfold strReadLoop
    refine Wp.ite (fun _ => Wp.ite (fun _ => internal_wp) fun _ => ?_) fun _ => Wp.pure ⟨h.nx, fun _ => h⟩
    refine Wp.bind' (str1_stringBytes h) ?_
    rintro ⟨re, bytes⟩ s1 h1
    refine Wp.bind' (strConsume_wp (F := F)) ?_
    rintro ⟨sr1, out1⟩ _ ⟨rfl, hr1⟩
    refine Wp.ite (fun _ => ?_) fun _ => ih h1 (hr1.trans hr)
    refine Wp.bind (Wp.modify ?_)
    refine Wp.bind' (onValueEnd_wp (F := F)) fun _ s2 e2 => Wp.pure ⟨(h1.sra false).same e2, fun h => by cases h⟩

theorem strReadImpl_wp {len : Nat} {sr : StrReader} (h : SrOk F sr s) : Wp (strReadImpl len sr) s (fun r s' => SrOk F r.1 s') (EL F) := by
  unfold strReadImpl
  refine Wp.ite (fun _ => Wp.pure h) fun hc => ?_
  have hr : sr.reachedEnd = false := by
    revert hc
    cases sr.reachedEnd <;> simp
  have h1 := h.2 hr
  unfold strDrain
  dsimp only
  refine Wp.ite_bind (fun _ => ?_) fun _ => Wp.bind (Wp.pure (strReadLoop_wp h1 hr))
  cases BufSrc.slice? sr.utf8Buf sr.utf8Start (sr.utf8Start + min sr.utf8Count len) with
  | none => exact Wp.bind internal_wp
  | some bytes => exact Wp.ite_bind (fun _ => Wp.bind (Wp.pure (strReadLoop_wp h1 hr))) fun _ => Wp.bind (Wp.pure (strReadLoop_wp h1 hr))

theorem strReadsOk_wp : ∀ {lens : List Nat} {sr : StrReader} {s : St}, SrOk F sr s → Wp (strReadsOk lens sr) s (fun r s' => SrOk F r.1 s') (EL F) := by
  intro lens
  induction lens with
  | nil => intro sr s h; exact Wp.pure h
  | cons len lens ih =>
    intro sr s h
    unfold strReadsOk
    refine Wp.bind' (strReadImpl_wp h) ?_
    rintro ⟨sr1, bytes⟩ s1 h1
    refine Wp.bind' (ih h1) ?_
    rintro ⟨sr2, rs⟩ s2 h2
    exact Wp.pure h2

theorem one_stringReader {lens : List Nat} : One (do
    let sr ← nextStringReader
    let (_, rs) ← strReadsOk lens sr
    pure (Out.reads rs) : R AbsSrc Out) := by
  intro F x y pk s h
  unfold nextStringReader
  refine Wp.bind (Wp.bind' h.startStr ?_)
  rintro p s1 ⟨_, h1⟩
  refine Wp.bind (Wp.modify (Wp.pure ?_))
  have h2 := h1.sra true
  refine Wp.bind' (strReadsOk_wp (sr := StrReader.new) ⟨h2.nx, fun _ => h2⟩) ?_
  rintro ⟨sr, rs⟩ s3 h3
  exact Wp.pure h3.1

/-! ## Methods which can read more than one token -/

/-- condition for errors of these methods: the path can be another one -/
def EN (F : Fr) (e : RErr) (s : St) : Prop := ∃ p b, EL { F with path := p, behind := b } e s

theorem EL.en {e : RErr} (h : EL F e s) : EN F e s := ⟨F.path, F.behind, h⟩

theorem EN.panic {p : Panic} : EN F (.panic p) s := EL.en .panic
theorem EN.fuel : EN F .outOfFuel s := EL.en .fuel

/-- such a method -/
structure Many (m : R AbsSrc α) : Prop where
  wp : ∀ {F : Fr} {s : St}, Nx F s → Wp m s (fun _ s' => Nx F s') (EN F)

theorem One.many {m : R AbsSrc α} (h : One m) : Many m := by
  refine ⟨?_⟩
  rintro F s ⟨p, b, x, y, pk, hr⟩
  exact (h hr).mono (fun _ _ h => h) fun _ _ h => ⟨p, b, h⟩

namespace Many
theorem bind {m : R AbsSrc α} {f : α → R AbsSrc β} (h : Many m) (hf : ∀ a, Many (f a)) : Many (m >>= f) := ⟨fun hn => Wp.bind' (h.wp hn) fun a _ h1 => (hf a).wp h1⟩
theorem pure (a : α) : Many (pure a : R AbsSrc α) := ⟨fun h => Wp.pure h⟩
theorem get {f : St → R AbsSrc β} (hf : ∀ s, Many (f s)) : Many (M.get >>= f) := ⟨fun h => Wp.get ((hf _).wp h)⟩
theorem ite {c : Prop} [Decidable c] {m1 m2 : R AbsSrc α} (h1 : Many m1) (h2 : Many m2) : Many (if c then m1 else m2) := ⟨fun h => Wp.ite (fun _ => h1.wp h) fun _ => h2.wp h⟩
theorem usage {p : UsagePanic} : Many (usagePanic p : R AbsSrc α) := ⟨fun _ => Wp.of_err rfl .panic⟩
theorem fuel : Many (M.fail .outOfFuel : R AbsSrc α) := ⟨fun _ => Wp.of_err rfl .fuel⟩
end Many

theorem one_skipString : One (do
    let _ ← startExpectedValueType .string false
    skipAllStringBytes
    onValueEnd
    pure 0 : R AbsSrc Nat) := by
  intro F x y pk s h
  refine Wp.bind' h.startStr ?_
  rintro p s1 ⟨_, h1⟩
  exact Wp.bind' (str1_skipAll h1) fun _ s2 h2 => Wp.bind' (onValueEnd_wp (F := F)) fun _ _ e => Wp.pure (h2.same e)

theorem many_skipValueStart : Many skipValueStart := by
  unfold skipValueStart
  refine (One.many @one_peek).bind fun t => ?_
  cases t
  · exact (One.many @one_beginArray).bind fun _ => .pure _
  · exact (One.many @one_beginObject).bind fun _ => .pure _
  · exact (One.many @one_skipString)
  · exact (One.many @one_skipNumber).bind fun _ => .pure _
  · exact (One.many @one_nextBool).bind fun _ => .pure _
  · exact (One.many @one_nextNull).bind fun _ => .pure _

theorem many_endContainer : Many endContainer := .get fun _ => .ite (One.many @one_endArray) (One.many @one_endObject)

theorem many_skipValueLoop : ∀ {f d : Nat}, Many (skipValueLoop f d) := by
  intro f
  induction f with
  | zero => intro d; exact .fuel
  | succ f ih =>
    intro d
    unfold skipValueLoop atContainerEnd skipNameIfExpected
    refine Many.bind (.ite ((One.many @one_hasNext).bind fun _ => .pure _) (.pure _)) fun b => ?_
    refine Many.bind (.ite (many_endContainer.bind fun _ => .pure _) (Many.bind (.get fun _ => .ite (One.many @one_skipName) (.pure _)) fun _ => many_skipValueStart.bind fun _ => .pure _)) fun d' => ?_
    exact .ite (.pure _) ih

theorem many_skipValue : Many skipValue := .get fun _ => .ite .usage many_skipValueLoop

theorem many_skipItems : ∀ {f : Nat}, Many (skipItems f) := by
  intro f
  induction f with
  | zero => exact .fuel
  | succ f ih => exact (One.many @one_hasNext).bind fun _ => .ite (many_skipValue.bind fun _ => ih) (.pure _)

theorem many_skipMembers : ∀ {f : Nat}, Many (skipMembers f) := by
  intro f
  induction f with
  | zero => exact .fuel
  | succ f ih => exact (One.many @one_hasNext).bind fun _ => .ite ((One.many @one_skipName).bind fun _ => many_skipValue.bind fun _ => ih) (.pure _)

theorem many_finishArray : Many finishArray := .get fun _ => many_skipItems.bind fun _ => (One.many @one_endArray)
theorem many_finishObject : Many finishObject := .get fun _ => many_skipMembers.bind fun _ => (One.many @one_endObject)

theorem many_topLoop : ∀ {f : Nat}, Many (skipToTopLevelLoop f) := by
  intro f
  induction f with
  | zero => exact .get fun _ => .ite (.pure _) .fuel
  | succ f ih =>
    refine .get fun s => ?_
    rcases s.stack with _ | ⟨_ | _, _⟩
    · exact .pure _
    · exact many_finishArray.bind fun _ => ih
    · exact many_finishObject.bind fun _ => ih

theorem many_skipToTopLevel : Many skipToTopLevel := .get fun _ => .ite .usage (Many.bind (.ite many_skipValue (.pure _)) fun _ => many_topLoop)

theorem many_next {f : Unit → R AbsSrc β} {g : StructureKind} (hg : g ≠ .moreElementsThanExpected) (hf : Many (f ())) : Many (do if ← hasNext then f () else structureErr g) := by
  refine ⟨?_⟩
  rintro F s ⟨p, b, x, y, pk, hr⟩
  refine Wp.bind' (hr.hasNext.mono (fun _ _ h => h) fun _ _ h => ⟨p, b, h⟩) ?_
  rintro c s1 ⟨x1, y1, pk1, h1, hc, _⟩
  refine Wp.ite (fun _ => hf.wp ⟨p, b, x1, y1, pk1, h1⟩) fun hc' => ?_
  exact (h1.atEnd (hc (by simpa using hc')) hg).mono (fun _ _ h => h) fun _ _ h => ⟨p, b, h⟩

theorem many_seekItems {i : Nat} : ∀ {n : Nat}, Many (seekItems i n) := by
  intro n
  induction n with
  | zero => exact many_next (f := fun _ => pure ()) (fun h => by cases h) (.pure _)
  | succ n ih => exact many_next (f := fun _ => do skipValue; seekItems i n) (fun h => by cases h) (many_skipValue.bind fun _ => ih)

theorem many_seekMembers {name : Text} : ∀ {f : Nat}, Many (seekMembers name f) := by
  intro f
  induction f with
  | zero => exact .fuel
  | succ f ih =>
    exact many_next (f := fun _ => do if (← nextName) == name then pure () else do skipValue; seekMembers name f) (g := .missingObjectMember name) (fun h => by cases h)
      ((One.many @one_nextName).bind fun _ => .ite (.pure _) (many_skipValue.bind fun _ => ih))

theorem many_seekToLoop : ∀ {l : List PathPiece}, Many (seekToLoop l) := by
  intro l
  induction l with
  | nil => exact .pure _
  | cons p l ih =>
    refine Many.bind ?_ fun _ => ih
    cases p with
    | arrayItem i => exact (One.many @one_beginArray).bind fun _ => many_seekItems
    | objectMember n => exact (One.many @one_beginObject).bind fun _ => .get fun _ => many_seekMembers

theorem many_seekBackLoop : ∀ {l : List PathPiece}, Many (seekBackLoop l) := by
  intro l
  induction l with
  | nil => exact .pure _
  | cons p l ih =>
    cases p with
    | arrayItem i => exact many_finishArray.bind fun _ => ih
    | objectMember n => exact many_finishObject.bind fun _ => ih

theorem Ready.trailing (h : Ready F x y pk s) (hm : F.st.allowMultipleTopLevel = false) : Wp Reader.consumeTrailingWhitespace s (fun _ s' => Nx F s') (EL F) := by
  unfold Reader.consumeTrailingWhitespace
  refine Wp.get (Wp.ite (fun _ => usage_wp) fun _ => Wp.ite (fun h1 => Wp.ite (fun _ => usage_wp) fun h2 => ?_) fun _ => usage_wp)
  have hpk : pk = none := by
    cases pk with
    | none => rfl
    | some p =>
      have hb := h.behind
      unfold isBehindTopLevel at hb
      rw [h1] at hb
      have := h.multi (by simp) (by rw [← hb]; simpa using h2)
      rw [hm] at this
      cases this
  subst hpk
  refine Wp.bind' (h.toAt.whitespace h.split (by rintro _ ⟨⟩)) ?_
  rintro o s1 ⟨x1, y1, h1, hn1, ⟨rfl, rfl⟩ | ⟨b, t, rfl, rfl, hw, _⟩, _⟩
  · exact Wp.pure (Str1.nx ⟨_, _, h1, hn1⟩)
  · exact h1.syn (k := .trailingData) ⟨b, t, rfl, notWs hw⟩

/-! ## Sequences of method calls -/

/-- condition for errors of a method -/
def EOp (F : Fr) (op : Op) (e : RErr) (s : St) : Prop := EN F e s ∧ (oneToken op = true → EL F e s)

theorem one_out {m : R AbsSrc α} {f : α → Out} (h : One m) : One (do let a ← m; pure (f a)) := fun hr => Wp.bind' (h hr) fun _ _ h => Wp.pure h

theorem runOp_wp {op : Op} (h : Ready F x y pk s) (hop : op = .consumeTrailingWhitespace → F.st.allowMultipleTopLevel = false) :
    Wp (runOp op) s (fun _ s' => Nx F s') (EOp F op) := by
  have one : ∀ {m : R AbsSrc Out}, One m → Wp m s (fun _ s' => Nx F s') (EOp F op) := fun hm => (hm h).mono (fun _ _ h => h) fun _ _ h => ⟨h.en, fun _ => h⟩
  have many : ∀ {m : R AbsSrc Unit}, Many m → oneToken op = false → Wp (unitOut m) s (fun _ s' => Nx F s') (EOp F op) := fun hm ho =>
    Wp.bind' ((hm.wp h.nx).mono (fun _ _ h => h) fun _ _ h => ⟨h, fun h => by rw [ho] at h; cases h⟩) fun _ _ h => Wp.pure h
  cases op with
  | peek => exact one (one_out (f := .type) one_peek)
  | beginArray => exact one (one_out (f := fun _ => .unit) one_beginArray)
  | endArray => exact one (one_out (f := fun _ => .unit) one_endArray)
  | beginObject => exact one (one_out (f := fun _ => .unit) one_beginObject)
  | endObject => exact one (one_out (f := fun _ => .unit) one_endObject)
  | nextName => exact one (one_out (f := .text) one_nextName)
  | nextNameOwned => exact one (one_out (f := .text) one_nextNameOwned)
  | nextString => exact one (one_out (f := .text) one_nextString)
  | nextStr => exact one (one_out (f := .text) one_nextStr)
  | stringReader lens => exact one one_stringReader
  | nextNumberAsStr => exact one (one_out (f := .text) (one_get one_readNumberBytes))
  | nextNumberAsString => exact one (one_out (f := .text) (one_get one_readNumberBytes))
  | nextBool => exact one (one_out (f := .bool) one_nextBool)
  | nextNull => exact one (one_out (f := fun _ => .unit) one_nextNull)
  | hasNext => exact one (one_out (f := .bool) one_hasNext)
  | skipName => exact one (one_out (f := fun _ => .unit) one_skipName)
  | skipValue => exact many many_skipValue rfl
  | skipToTopLevel => exact many many_skipToTopLevel rfl
  | seekTo path => exact many ((One.many @one_peek).bind fun _ => many_seekToLoop) rfl
  | seekBack path => exact many many_seekBackLoop rfl
  | currentPosition p => exact Wp.get (Wp.pure h.nx)
  | consumeTrailingWhitespace =>
    exact Wp.bind' ((h.trailing (hop rfl)).mono (fun _ _ h => h) fun _ _ h => ⟨h.en, fun _ => h⟩) fun _ _ h => Wp.pure h

/-- the state in which the last call is made -/
theorem runOps_last {op1 op2 : Op} {r1 r2 : Except RErr Out} : ∀ {pre : List Op} {s : St} {rs1 rs2 : List (Except RErr Out)}, Nx F s → rs1.length = pre.length → rs2.length = pre.length →
    (∀ t l, .error (.unsupportedNumberValue t l) ∉ rs1) → runOps (pre ++ [op1]) s = rs1 ++ [r1] → runOps (pre ++ [op2]) s = rs2 ++ [r2] →
    ∃ s', Nx F s' ∧ runOps [op1] s' = [r1] ∧ runOps [op2] s' = [r2] := by
  intro pre
  induction pre with
  | nil =>
    intro s rs1 rs2 h l1 l2 _ h1 h2
    cases rs1 with
    | cons => cases l1
    | nil =>
      cases rs2 with
      | cons => cases l2
      | nil => exact ⟨s, h, h1, h2⟩
  | cons op pre ih =>
    intro s rs1 rs2 h l1 l2 hu h1 h2
    rcases rs1 with _ | ⟨a1, rs1⟩
    · cases l1
    rcases rs2 with _ | ⟨a2, rs2⟩
    · cases l2
    have l1 : rs1.length = pre.length := by simpa using l1
    have l2 : rs2.length = pre.length := by simpa using l2
    have hu' : ∀ t l, .error (.unsupportedNumberValue t l) ∉ rs1 := fun t l hm => hu t l (List.mem_cons_of_mem _ hm)
    simp only [List.cons_append, runOps] at h1 h2
    obtain ⟨p, b, x, y, pk, hr⟩ := h
    cases hop : decide (op = .consumeTrailingWhitespace) with
    | true =>
      have hop := of_decide_eq_true hop
      simp only [hop] at h1
      split at h1 <;> simp at h1
    | false =>
      have hop := of_decide_eq_false hop
      have hw := runOp_wp (op := op) hr fun h => absurd h hop
      cases hm : (runOp op).run s with
      | ok o s' =>
        rw [hm] at h1 h2
        dsimp only at h1 h2
        rw [if_neg hop] at h1 h2
        exact ih (hw.ok hm) l1 l2 hu' (List.cons.inj h1).2 (List.cons.inj h2).2
      | err e s' =>
        rw [hm] at h1 h2
        dsimp only at h1 h2
        have hf : e.fatal = false := by
          cases hf : e.fatal with
          | false => rfl
          | true =>
            rw [hf] at h1
            simp at h1
        rw [if_neg (by simp [hf, hop])] at h1 h2
        obtain ⟨⟨p', b', _, hE⟩, _⟩ := hw.err hm
        have hun : isUnsupported e = false := by
          cases e with
          | unsupportedNumberValue t l => exact absurd (by rw [← (List.cons.inj h1).1]; exact List.mem_cons_self ..) (hu t l)
          | _ => rfl
        obtain ⟨x', y', pk', hr'⟩ := hE hf hun
        exact ih ⟨p', b', x', y', pk', hr'⟩ l1 l2 hu' (List.cons.inj h1).2 (List.cons.inj h2).2

/-- the location of an error of the last call -/
theorem runAbs_where {st : Settings} {bytes : Bytes} {pre : List Op} {op : Op} {rs1 rs2 : List (Except RErr Out)} {P l : Position} {er : RErr}
    (l1 : rs1.length = pre.length) (l2 : rs2.length = pre.length) (hu : ∀ t l, .error (.unsupportedNumberValue t l) ∉ rs1)
    (h1 : runAbs st bytes none (pre ++ [.currentPosition true]) = rs1 ++ [.ok (.position P)]) (h2 : runAbs st bytes none (pre ++ [op]) = rs2 ++ [.error er])
    (hop : op = .consumeTrailingWhitespace → st.allowMultipleTopLevel = false) (hl : location er = some l) :
    P.dataPos ≤ l.dataPos ∧ LocationIn bytes l ∧ (oneToken op = true → l.path = P.path) ∧ Points er (bytes.drop l.dataPos) := by
  have h0 : Nx ⟨bytes, none, false, st, 0⟩ (new (σ := AbsSrc) ⟨bytes, none, []⟩ st) :=
    ⟨_, _, [], bytes, none, ⟨rfl, rfl, rfl, rfl, rfl, rfl, rfl, Nat.le_refl _, rfl, fun h => by cases h⟩, noSplit_nil_left _, (fun _ h => by cases h), (fun h => by cases h), (fun h => by cases h), fun h => absurd rfl h⟩
  obtain ⟨s, ⟨p, b, x, y, pk, hr⟩, h3, h4⟩ := runOps_last h0 l1 l2 hu h1 h2
  have hr' : Ready ⟨bytes, p, b, st, x.length⟩ x y pk s := ⟨⟨hr.inp, hr.rest, hr.pos, hr.peeked, hr.path, hr.behind, hr.st, Nat.le_refl _, hr.term, hr.obj⟩, hr.split, hr.follow, hr.objEnd, hr.arrEnd, hr.multi⟩
  have hP : P = loc s := by
    have : runOps [Op.currentPosition true] s = [.ok (.position (loc s))] := rfl
    rw [this] at h3
    cases h3
    rfl
  have hPx : P.dataPos = x.length := by
    rw [hP]
    have := congrArg Pos.byte hr.pos
    rw [posOf_eq] at this
    exact this
  have he : ∃ s', (runOp op).run s = .err er s' := by
    unfold runOps at h4
    cases hm : (runOp op).run s with
    | ok o s' => rw [hm] at h4; cases (List.cons.inj h4).1
    | err e s' => rw [hm] at h4; cases (List.cons.inj h4).1; exact ⟨s', rfl⟩
  obtain ⟨s', he⟩ := he
  obtain ⟨⟨p', b', hw, _⟩, hone⟩ := (runOp_wp hr' hop).err he
  obtain ⟨x', y', h5, h6, h7, h8, h9⟩ := hw l hl
  rw [posOf_eq] at h6
  simp only [Pos.mk.injEq] at h6
  obtain ⟨e1, e2, e3⟩ := h6
  have h5 : bytes = x' ++ y' := h5
  have ht : bytes.take l.dataPos = x' := by rw [h5, e3, List.take_left']; rfl
  have hd : bytes.drop l.dataPos = y' := by rw [h5, e3, List.drop_left']; rfl
  refine ⟨by rw [hPx, e3]; exact h8, ⟨?_, ?_, ?_⟩, fun ho => ?_, by rw [hd]; exact h9⟩
  · rw [e3, h5, List.length_append]; omega
  · rw [ht]; exact e1
  · rw [ht]; exact e2
  · obtain ⟨_, _, _, _, h10, _⟩ := (hone ho).1 l hl
    rw [h10, hP]
    show p.map List.reverse = s.path.map List.reverse
    rw [hr.path]

end
end Verif.Where
