import Verif.Proofs.RelReader
/-!
# The reader with its internal buffer behaves like the reader on the plain list of bytes

`Verif.BufSrc.sim`: the `Sim` between `BufSrc N` (`N > 0`) and `AbsSrc`.
-/

namespace Verif.BufSrc
variable {N : Nat} {dbg stale : Bool}

theorem readLoop_spec (space : Nat) (hs : 0 < space) : ∀ es : List ReadEvent,
    match readLoop space es with
    | (.error c, _) => schedBytes es = [] ∧ schedError es = some c
    | (.ok d, es') => d.length ≤ space ∧
      (d.length = 0 → schedBytes es = [] ∧ schedError es = none) ∧
      (d.length ≠ 0 → schedBytes es = d ++ schedBytes es' ∧ schedError es = schedError es') := by
  intro es
  induction es with
  | nil => simp [readLoop, schedBytes, schedError]
  | cons e es ih =>
    cases e with
    | interrupted => simpa [readLoop, schedBytes, schedError] using ih
    | error c => simp [readLoop, schedBytes, schedError]
    | data bs =>
      unfold readLoop
      by_cases h : bs.length ≤ space
      · rw [if_pos h]
        refine ⟨h, fun h0 => ?_, fun h0 => ?_⟩
        · simp [schedBytes, schedError, h0]
        · simp [schedBytes, schedError, h0]
      · rw [if_neg h]
        have h1 : (bs.take space).length = space := by simp; omega
        have h2 : (bs.drop space).length ≠ 0 := by simp; omega
        have h3 : bs.length ≠ 0 := by omega
        refine ⟨by omega, fun h0 => by omega, fun _ => ?_⟩
        simp only [schedBytes, schedError, beq_iff_eq, h2, h3, if_false]
        rw [← List.append_assoc, List.take_append_drop]
        exact ⟨rfl, trivial⟩

/-- The part of the relation which always holds -/
structure Base (c : BufSrcD N dbg) (a : AbsSrc) : Prop where
  len : c.buf.length = N
  le1 : c.bufPos ≤ c.bufEndPos
  le2 : c.bufEndPos ≤ N
  eof : c.reachedEof = true → c.bufPos = c.bufEndPos
  rest : a.rest = (c.buf.take c.bufEndPos).drop c.bufPos ++ (if c.reachedEof then [] else schedBytes c.sched)
  term : a.term = if c.reachedEof then none else schedError c.sched

/-- next byte is available without reading -/
def Avail (c : BufSrcD N dbg) : Prop := c.bufPos < c.bufEndPos ∨ c.reachedEof = true

theorem Base.cons {c : BufSrcD N dbg} {a : AbsSrc} (h : Base c a) (hp : c.bufPos < c.bufEndPos) :
    ∃ b t, c.buf[c.bufPos]? = some b ∧ a.rest = b :: t ∧
      t = (c.buf.take c.bufEndPos).drop (c.bufPos + 1) ++ (if c.reachedEof then [] else schedBytes c.sched) := by
  have h1 : c.bufPos < (c.buf.take c.bufEndPos).length := by
    have := h.len; have := h.le2; simp; omega
  have h2 : c.bufPos < c.buf.length := by have := h.len; have := h.le2; omega
  refine ⟨c.buf[c.bufPos], _, List.getElem?_eq_getElem h2, ?_, rfl⟩
  rw [h.rest, List.drop_eq_getElem_cons h1, List.getElem_take]
  rfl

theorem Base.nil {c : BufSrcD N dbg} {a : AbsSrc} (h : Base c a) (hp : c.reachedEof = true) : a.rest = [] ∧ a.term = none := by
  have := h.eof hp
  have h1 := h.rest
  have h2 := h.term
  rw [hp, if_pos rfl] at h1 h2
  refine ⟨?_, h2⟩
  rw [h1, this, List.append_nil, List.drop_eq_nil_iff]
  simp; omega

/-- What `fill_buffer` does, given that the buffer contains no unread bytes -/
inductive Filled (start : Nat) (c : BufSrcD N dbg) (a : AbsSrc) : Res SrcErr (BufSrcD N dbg) Bool → Prop
  | same (h : c.reachedEof = true) : Filled start c a (.ok false c)
  | eof (h : c.reachedEof = false) (hr : a.rest = []) (ht : a.term = none) (es : List ReadEvent) :
      Filled start c a (.ok false { c with bufPos := start, sched := es, bufEndPos := start, reachedEof := true })
  | used (h : c.reachedEof = false) (hu : c.bufUsed = true) : Filled start c a (.err (.panic (.internal .bufHoldsValue)) c)
  | err (h : c.reachedEof = false) (hu : c.bufUsed = false) (hr : a.rest = []) (code : Nat) (ht : a.term = some code) (es : List ReadEvent) :
      Filled start c a (.err (.io code) { c with bufPos := start, sched := es })
  | some (h : c.reachedEof = false) (b : UInt8) (r : Bytes) (hr : a.rest = b :: r) (buf : Bytes) (stop : Nat) (es : List ReadEvent)
      (h1 : start < stop) (h2 : stop ≤ N) (h3 : buf.length = N) (h4 : buf.take start = c.buf.take start)
      (h5 : a.rest = (buf.take stop).drop start ++ schedBytes es) (h6 : a.term = schedError es) (h7 : buf[start]? = some b) :
      Filled start c a (.ok true { c with bufPos := start, sched := es, buf := buf, bufEndPos := stop, reachedEof := false })

theorem fillBuffer_spec (start : Nat) {c : BufSrcD N dbg} {a : AbsSrc} (h : Base c a) (hp : c.bufPos = c.bufEndPos)
    (hs : start < N) : Filled start c a ((fillBuffer start).run c) := by
  unfold fillBuffer
  rw [M.run_bind, M.run_get]
  dsimp only
  cases he : c.reachedEof with
  | true => exact .same he
  | false =>
    have hnil : (c.buf.take c.bufEndPos).drop c.bufPos = [] := by
      rw [List.drop_eq_nil_iff]; simp; omega
    have hr := h.rest
    have ht := h.term
    rw [he, if_neg Bool.false_ne_true] at hr ht
    rw [hnil, List.nil_append] at hr
    rw [if_neg Bool.false_ne_true, if_neg (by simp; omega), if_neg (by simp [h.len]; omega)]
    by_cases hu : c.bufUsed = true
    · rw [if_pos hu]
      exact .used he hu
    rw [if_neg hu]
    have hu : c.bufUsed = false := by simpa using hu
    have hspec := readLoop_spec (c.buf.length - start) (by rw [h.len]; omega) c.sched
    rcases hl : readLoop (c.buf.length - start) c.sched with ⟨e | d, es⟩
    · rw [hl] at hspec
      rw [hspec.1] at hr
      rw [hspec.2] at ht
      have := Filled.err (start := start) he hu hr _ ht es
      rw [he] at this
      exact this
    · rw [hl] at hspec
      obtain ⟨h1, h2, h3⟩ := hspec
      cases d with
      | nil =>
        have h2 := h2 rfl
        rw [h2.1] at hr
        rw [h2.2] at ht
        have := Filled.eof (start := start) he hr ht es
        dsimp only
        rw [M.run_bind, M.run_set]
        dsimp only
        rw [M.run_pure]
        simpa using this
      | cons b d =>
        have h3 := h3 (by simp)
        rw [h3.1] at hr
        rw [h3.2] at ht
        have hl1 : (c.buf.take start).length = start := by rw [List.length_take, h.len]; omega
        have hlen : (b :: d).length ≤ N - start := by rw [← h.len]; exact h1
        have := Filled.some (start := start) he b (d ++ schedBytes es) hr
          (c.buf.take start ++ (b :: d) ++ c.buf.drop (start + (b :: d).length)) (start + (b :: d).length) es
          (by simp) (by omega)
          (by rw [List.length_append, List.length_append, hl1, List.length_drop, h.len]; omega)
          (by rw [List.append_assoc]; rw [List.take_append_of_le_length (by omega)]; rw [List.take_of_length_le (by omega)])
          (by
            rw [hr, List.take_append_of_le_length (by rw [List.length_append, hl1]; omega)]
            rw [List.take_of_length_le (by rw [List.length_append, hl1]; omega)]
            rw [List.drop_append_of_le_length (by omega), List.drop_of_length_le (by omega)]
            rfl)
          ht
          (by
            rw [List.append_assoc, List.getElem?_append_right (by omega), hl1]
            simp)
        dsimp only
        rw [M.run_bind, M.run_set]
        dsimp only
        rw [M.run_pure]
        simpa using this

/-- The relation between the two sources; `stale`: a previous error may have left `buf_used_for_bytes_value` set -/
inductive BRel (stale : Bool) : Phase → BufSrcD N dbg → AbsSrc → Prop
  | idle {k : Bool} {c : BufSrcD N dbg} {a : AbsSrc} (h : Base c a) (hu : c.bufUsed = true → stale = true) (hk : k = true → Avail c) :
      BRel stale (.idle k) c a
  | value {k l : Bool} {c : BufSrcD N dbg} {a : AbsSrc} (h : Base c a) (hu : c.bufUsed = true → stale = true) (hk : k = true → Avail c)
      (hkf : k = false → c.reachedEof = true → c.bufEndPos = 0)
      (v : VReader) (hv : c.v = some v) (hsk : v.skipFinalByte = false) (hs : v.bufValueStart ≤ c.bufPos)
      (hacc : a.acc = c.valueBuf ++ (c.buf.take c.bufPos).drop v.bufValueStart)
      (hus : v.isUsingBytesBuf = false → c.valueBuf = [])
      (hl : l = true → v.bufValueStart < c.bufPos) : BRel stale (.value k l) c a
  | valueFinal {c : BufSrcD N dbg} {a : AbsSrc} (h : Base c a) (hu : c.bufUsed = true → stale = true)
      (v : VReader) (hv : c.v = some v) (hsk : v.skipFinalByte = true) (hs : v.bufValueStart < c.bufPos)
      (hacc : a.acc = c.valueBuf ++ (c.buf.take (c.bufPos - 1)).drop v.bufValueStart)
      (hus : v.isUsingBytesBuf = false → c.valueBuf = []) : BRel stale .valueFinal c a
  | heldBuf {k b : Bool} {c : BufSrcD N dbg} {a : AbsSrc} (h : Base c a) (hk : k = true → Avail c) (start stop : Nat)
      (hval : c.val = some (.readerBuf start stop)) (h1 : start ≤ stop) (h2 : stop ≤ N)
      (hacc : a.acc = (c.buf.take stop).drop start) : BRel stale (.held k b) c a
  | heldValue {k b : Bool} {c : BufSrcD N dbg} {a : AbsSrc} (h : Base c a) (hu : c.bufUsed = true → stale = true) (hk : k = true → Avail c)
      (hval : c.val = some .bytesValueBuf) (hacc : a.acc = c.valueBuf) : BRel stale (.held k b) c a
  | heldVec {k : Bool} {c : BufSrcD N dbg} {a : AbsSrc} (h : Base c a) (hu : c.bufUsed = true → stale = true) (hk : k = true → Avail c)
      (bs : Bytes) (hval : c.val = some (.vec bs)) (hacc : a.acc = bs) : BRel stale (.held k false) c a

theorem BRel.base {p : Phase} {c : BufSrcD N dbg} {a : AbsSrc} (h : BRel stale p c a) : Base c a := by
  cases h <;> assumption

/-- bounds of the buffer -/
structure Bnd (c : BufSrcD N dbg) : Prop where
  len : c.buf.length = N
  le1 : c.bufPos ≤ c.bufEndPos
  le2 : c.bufEndPos ≤ N
  eof : c.reachedEof = true → c.bufPos = c.bufEndPos

/-- What is known after a syntax error or an error of the underlying reader. -/
def Fin (stale b : Bool) (c : BufSrcD N dbg) : Prop := Bnd c ∧ (c.bufUsed = true → stale = true ∨ b = true)

theorem Base.bnd {c : BufSrcD N dbg} {a : AbsSrc} (h : Base c a) : Bnd c := ⟨h.len, h.le1, h.le2, h.eof⟩

/-- Exempt errors: if a previous error left `buf_used_for_bytes_value` set, then refilling the buffer and (with debug assertions)
getting a value from the buffer panics -/
def SX (dbg stale : Bool) (e : RErr) : Prop :=
  stale = true ∧ (e = .panic (.internal .bufHoldsValue) ∨ (dbg = true ∧ e = .panic (.internal .debugAssert)))

theorem SX.no {e : RErr} : ¬ SX dbg false e := by rintro ⟨⟨⟩, _⟩

theorem slice_eq {bs : Bytes} {i j : Nat} (h1 : i ≤ j) (h2 : j ≤ bs.length) (c : BufSrcD N dbg) :
    (slice bs i j : M SrcErr (BufSrcD N dbg) Bytes).run c = .ok ((bs.take j).drop i) c := by
  unfold slice slice?
  rw [if_pos ⟨h1, h2⟩]
  rfl

theorem index_eq {bs : Bytes} {i : Nat} {b : UInt8} (h : bs[i]? = some b) (c : BufSrcD N dbg) :
    (index bs i : M SrcErr (BufSrcD N dbg) UInt8).run c = .ok b c := by
  unfold index
  rw [h]
  rfl

theorem toStr_run (bs : Bytes) (c : BufSrcD N dbg) : (toStr bs : M SrcErr (BufSrcD N dbg) Text).run c =
    match Utf8.toStrUnchecked bs with
    | some t => .ok t c
    | none => .err (.panic (.internal .invalidUtf8)) c := by
  unfold toStr
  cases Utf8.toStrUnchecked bs <;> rfl

theorem absPeek_cons {a : AbsSrc} {b : UInt8} {t : Bytes} (h : a.rest = b :: t) :
    AbsSrc.peekByte.run a = .ok (some b) a := by
  unfold AbsSrc.peekByte; dsimp only; rw [h]

theorem absPeek_none {a : AbsSrc} (h : a.rest = []) (ht : a.term = none) : AbsSrc.peekByte.run a = .ok none a := by
  unfold AbsSrc.peekByte; dsimp only; rw [h, ht]

theorem absPeek_err {a : AbsSrc} {c : Nat} (h : a.rest = []) (ht : a.term = some c) :
    AbsSrc.peekByte.run a = .err (.io c) a := by
  unfold AbsSrc.peekByte; dsimp only; rw [h, ht]

/-- `peek_byte` if no reading is necessary -/
theorem peekByte_avail {c : BufSrcD N dbg} {a : AbsSrc} (h : Base c a) (hk : Avail c) :
    (∃ b, (peekByte.run c : Res SrcErr (BufSrcD N dbg) _) = .ok (some b) c ∧ AbsSrc.peekByte.run a = .ok (some b) a) ∨
    ((peekByte.run c : Res SrcErr (BufSrcD N dbg) _) = .ok none c ∧ AbsSrc.peekByte.run a = .ok none a) := by
  unfold peekByte ensureNonEmptyBuffer
  by_cases hp : c.bufPos < c.bufEndPos
  · obtain ⟨b, t, h1, h2, _⟩ := h.cons hp
    refine .inl ⟨b, ?_, absPeek_cons h2⟩
    rw [M.run_bind, M.run_bind, M.run_get]
    dsimp only
    rw [if_pos hp]
    dsimp only [M.run_pure]
    rw [if_pos rfl, M.run_bind, M.run_get]
    dsimp only
    rw [M.run_bind, index_eq h1]
    rfl
  · have he : c.reachedEof = true := by
      rcases hk with hk | hk
      · exact absurd hk hp
      · exact hk
    obtain ⟨h1, h2⟩ := h.nil he
    refine .inr ⟨?_, absPeek_none h1 h2⟩
    rw [M.run_bind, M.run_bind, M.run_get]
    dsimp only
    rw [if_neg hp]
    unfold fillBuffer
    rw [M.run_bind, M.run_get]
    dsimp only
    rw [he, if_pos rfl]
    rfl


/-- relation of the results -/
def ORes {α : Type} (stale : Bool) (Q : α → BufSrcD N dbg → AbsSrc → Prop) (r1 : Res SrcErr (BufSrcD N dbg) α) (r2 : Res SrcErr AbsSrc α) : Prop :=
  RR (fun e => ∀ l, SX dbg stale (srcRErr e l)) (fun e c _ => ∀ k, e = .io k → Fin stale false c) Q r1 r2

theorem ORes.ok {α : Type} {Q : α → BufSrcD N dbg → AbsSrc → Prop} {x : α} {c : BufSrcD N dbg} {a : AbsSrc} (h : Q x c a) :
    ORes stale Q (.ok x c) (.ok x a) := ⟨rfl, h⟩

theorem ORes.err {α : Type} {Q : α → BufSrcD N dbg → AbsSrc → Prop} (e : Panic) (c : BufSrcD N dbg) (a : AbsSrc) :
    ORes stale Q (.err (.panic e) c) (.err (.panic e) a) := .inr ⟨rfl, nofun⟩

theorem ORes.io {α : Type} {Q : α → BufSrcD N dbg → AbsSrc → Prop} (k : Nat) {c : BufSrcD N dbg} (a : AbsSrc) (h : Fin stale false c) :
    ORes stale Q (.err (.io k) c) (.err (.io k) a) := .inr ⟨rfl, fun _ _ => h⟩

theorem ORes.exempt {α : Type} {Q : α → BufSrcD N dbg → AbsSrc → Prop} {p : Panic} {c : BufSrcD N dbg} (r : Res SrcErr AbsSrc α)
    (h : SX dbg stale (.panic p)) : ORes stale Q (.err (.panic p) c) r := by
  cases r
  · exact fun _ => h
  · exact .inl fun _ => h

theorem Filled.fin {start k : Nat} {c c' : BufSrcD N dbg} {a : AbsSrc} (h : Base c a) (hs : start ≤ c.bufEndPos) (hf : Filled start c a (.err (.io k) c')) :
    Fin stale false c' := by
  cases hf with
  | err he hu hr _ ht es =>
    refine ⟨⟨h.len, hs, h.le2, fun h' => ?_⟩, fun h' => ?_⟩
    · dsimp only at h'; rw [he] at h'; cases h'
    · dsimp only at h'; rw [hu] at h'; cases h'

theorem SX.used (h : stale = true) : SX dbg stale (.panic (.internal .bufHoldsValue)) := ⟨h, .inl rfl⟩

theorem Base.filled {start : Nat} {c c' : BufSrcD N dbg} {a : AbsSrc} {r : Bool} (h : Base c a) (_ : c.bufPos = c.bufEndPos) (hs : start ≤ N)
    (hf : Filled start c a (.ok r c')) : Base c' a := by
  cases hf with
  | same h => assumption
  | eof he hr ht es =>
    exact ⟨h.len, Nat.le_refl _, hs, fun _ => rfl, by
      rw [hr]
      simp only [if_true, List.append_nil]
      rw [eq_comm, List.drop_eq_nil_iff]
      simp; omega, by simpa using ht⟩
  | some he b r hr buf stop es h1 h2 h3 h4 h5 h6 h7 =>
    exact ⟨h3, by dsimp only; omega, h2, by rintro ⟨⟩, h5, h6⟩

theorem peekByte_rel (hN : 0 < N) : OpRel (SX dbg stale) (Fin stale false) (BRel (N := N) (dbg := dbg) stale (.idle false)) ByteSource.peekByte ByteSource.peekByte
    (fun _ => BRel stale (.idle true)) := by
  intro c a hr
  cases hr with
  | idle h hu hk =>
    by_cases hp : c.bufPos < c.bufEndPos
    · rcases peekByte_avail h (.inl hp) with ⟨b, h1, h2⟩ | ⟨h1, h2⟩
      · show ORes stale _ (peekByte.run c) (AbsSrc.peekByte.run a)
        rw [h1, h2]
        exact .ok (.idle h hu fun _ => .inl hp)
      · show ORes stale _ (peekByte.run c) (AbsSrc.peekByte.run a)
        rw [h1, h2]
        exact .ok (.idle h hu fun _ => .inl hp)
    · show ORes stale _ (peekByte.run c) (AbsSrc.peekByte.run a)
      have hpe : c.bufPos = c.bufEndPos := by have := h.le1; omega
      have hf := fillBuffer_spec 0 h hpe hN
      unfold peekByte ensureNonEmptyBuffer
      rw [M.run_bind, M.run_bind, M.run_get]
      dsimp only
      rw [if_neg hp]
      rcases hrun : (fillBuffer 0).run c with ⟨r, c'⟩ | ⟨e, c'⟩
      · rw [hrun] at hf
        have hb := h.filled hpe (by omega) hf
        dsimp only
        cases hf with
        | same he =>
          obtain ⟨h1, h2⟩ := h.nil he
          rw [absPeek_none h1 h2]
          exact .ok (.idle h hu fun _ => .inr he)
        | eof he hr ht es =>
          rw [absPeek_none hr ht]
          exact .ok (.idle hb hu fun _ => .inr rfl)
        | some he b r hr buf stop es h1 h2 h3 h4 h5 h6 h7 =>
          rw [if_pos rfl, M.run_bind, M.run_get]
          dsimp only
          rw [M.run_bind, index_eq h7, absPeek_cons hr]
          exact .ok (.idle hb hu fun _ => .inl h1)
      · rw [hrun] at hf
        have hfin := fun k (hio : e = .io k) => Filled.fin (stale := stale) h (Nat.zero_le _) (hio ▸ hf)
        cases hf with
        | used he hu' => exact .exempt _ (.used (hu hu'))
        | err he hu' hr code ht es =>
          rw [absPeek_err hr ht]
          exact .io _ _ (hfin _ rfl)

theorem Base.step {c : BufSrcD N dbg} {a : AbsSrc} (h : Base c a) (hp : c.bufPos < c.bufEndPos) {b : UInt8} {t : Bytes}
    (hr : a.rest = b :: t) (acc : Bytes) : Base (N := N) (dbg := dbg) { c with bufPos := c.bufPos + 1 } { a with rest := t, acc := acc } := by
  obtain ⟨b', t', _, h2, h3⟩ := h.cons hp
  rw [hr] at h2
  cases h2
  exact ⟨h.len, hp, h.le2, fun he => by have := h.eof he; omega, h3, h.term⟩

theorem skipPeekedByte_rel : OpRel (SX dbg stale) (Fin stale false) (BRel (N := N) (dbg := dbg) stale (.idle true)) ByteSource.skipPeekedByte ByteSource.skipPeekedByte
    (fun _ => BRel stale (.idle false)) := by
  intro c a hr
  cases hr with
  | idle h hu hk =>
    show ORes stale _ (skipPeekedByte.run c) (AbsSrc.skipPeekedByte.run a)
    unfold skipPeekedByte AbsSrc.skipPeekedByte
    rw [M.run_bind, M.run_get]
    dsimp only
    by_cases hp : c.bufPos < c.bufEndPos
    · obtain ⟨b, t, h1, h2, _⟩ := h.cons hp
      rw [if_neg (by simp; omega), h2]
      exact .ok (.idle (h.step hp h2 a.acc) hu (by rintro ⟨⟩))
    · have he : c.reachedEof = true := (hk rfl).resolve_left hp
      rw [if_pos (by simp; omega), (h.nil he).1]
      exact .err _ _ _

theorem vNew_rel (k : Bool) : OpRel (SX dbg stale) (Fin stale false) (BRel (N := N) (dbg := dbg) stale (.idle k)) ByteSource.vNew ByteSource.vNew
    (fun _ => BRel stale (.value k false)) := by
  intro c a hr
  cases hr with
  | idle h hu hk =>
    show ORes stale _ (vNew.run c) (AbsSrc.vNew.run a)
    unfold vNew AbsSrc.vNew
    rw [M.run_bind, M.run_get]
    dsimp only
    by_cases hp : c.bufPos > 0
    · rw [if_pos hp, M.run_bind, slice_eq h.le1 (by rw [h.len]; exact h.le2)]
      dsimp only
      have hl : ((c.buf.take c.bufEndPos).drop c.bufPos).length = c.bufEndPos - c.bufPos := by
        have := h.le2; have := h.len
        simp; omega
      refine .ok (.value (v := ⟨false, 0, false⟩) ⟨?_, by dsimp only; omega, by have := h.le2; dsimp only; omega, ?_, ?_, h.term⟩ hu ?_ ?_ rfl rfl (Nat.le_refl _) ?_
        (fun _ => rfl) (by rintro ⟨⟩))
      · have := h.le1; have := h.le2; have := h.len
        dsimp only
        rw [List.length_append, hl, List.length_drop, h.len]
        omega
      · intro he; have := h.eof he; dsimp only; omega
      · dsimp only
        rw [List.take_append_of_le_length (by omega), List.take_of_length_le (by omega), List.drop_zero]
        exact h.rest
      · intro hk'
        rcases hk hk' with hk | hk
        · left; dsimp only; omega
        · right; exact hk
      · intro _ he; have := h.eof he; dsimp only; omega
      · dsimp only; simp
    · rw [if_neg hp]
      have hp0 : c.bufPos = 0 := by omega
      refine .ok (.value (v := ⟨false, 0, false⟩) ⟨h.len, h.le1, h.le2, h.eof, h.rest, h.term⟩ hu hk ?_ rfl rfl (Nat.zero_le _) ?_ (fun _ => rfl)
        (by rintro ⟨⟩))
      · intro _ he; have := h.eof he; dsimp only at *; omega
      · dsimp only; simp [hp0]

theorem vConsume_rel : OpRel (SX dbg stale) (Fin stale false) (BRel (N := N) (dbg := dbg) stale (.value true false)) ByteSource.vConsume ByteSource.vConsume
    (fun _ => BRel stale (.value false true)) := by
  intro c a hr
  cases hr with
  | value h hu hk hkf v hv hsk hs hacc hus hl =>
    show ORes stale _ (vConsume.run c) (AbsSrc.vConsume.run a)
    unfold vConsume AbsSrc.vConsume
    rw [M.run_bind, M.run_get]
    dsimp only
    by_cases hp : c.bufPos < c.bufEndPos
    · obtain ⟨b, t, h1, h2, _⟩ := h.cons hp
      rw [if_neg (by simp; omega), h2]
      refine .ok (.value (h.step hp h2 _) hu (by rintro ⟨⟩) ?_ v hv hsk (Nat.le_succ_of_le hs) ?_ hus (fun _ => Nat.lt_succ_of_le hs))
      · intro _ he; have := h.eof he; dsimp only at *; omega
      · have hlt : c.bufPos < c.buf.length := by have := h.len; have := h.le2; omega
        dsimp only
        rw [hacc, List.take_add_one, h1, List.append_assoc]
        congr 1
        rw [List.drop_append_of_le_length (by rw [List.length_take]; omega)]
        rfl
    · have he : c.reachedEof = true := (hk rfl).resolve_left hp
      rw [if_pos (by simp; omega), (h.nil he).1]
      exact .err _ _ _

theorem vState_run {c : BufSrcD N dbg} {v : VReader} (hv : c.v = some v) : vState.run c = .ok v c := by
  unfold vState
  rw [M.run_bind, M.run_get]
  dsimp only
  rw [hv]
  rfl

theorem take_drop_last (bs : Bytes) (i j : Nat) (h : i < j) (hj : j ≤ bs.length) :
    ((bs.take j).drop i).dropLast = (bs.take (j - 1)).drop i := by
  rw [List.dropLast_eq_take]
  simp only [List.length_drop, List.length_take]
  rw [List.take_drop, List.take_take]
  congr 2
  omega

theorem take_drop_ne_nil (bs : Bytes) (i j : Nat) (h : i < j) (hj : j ≤ bs.length) : (bs.take j).drop i ≠ [] := by
  intro h0
  have := congrArg List.length h0
  simp at this
  omega

theorem vSkipPrevious_rel : OpRel (SX dbg stale) (Fin stale false) (BRel (N := N) (dbg := dbg) stale (.value false true)) ByteSource.vSkipPrevious ByteSource.vSkipPrevious
    (fun _ => BRel stale (.value false false)) := by
  intro c a hr
  cases hr with
  | value h hu hk hkf v hv hsk hs hacc hus hl =>
    have hl := hl rfl
    have hlt : c.bufPos ≤ c.buf.length := by have := h.len; have := h.le2; have := h.le1; omega
    show ORes stale _ (vSkipPrevious.run c) (AbsSrc.vDropLast.run a)
    unfold vSkipPrevious AbsSrc.vDropLast
    rw [M.run_bind, vState_run hv]
    dsimp only
    rw [M.run_bind, M.run_get]
    dsimp only
    rw [hsk, if_neg Bool.false_ne_true]
    have hdl : a.acc.dropLast = c.valueBuf ++ (c.buf.take (c.bufPos - 1)).drop v.bufValueStart := by
      rw [hacc, List.dropLast_append_of_ne_nil (take_drop_ne_nil _ _ _ hl hlt), take_drop_last _ _ _ hl hlt]
    have hbase : ∀ acc, Base c { a with acc := acc } := fun acc => ⟨h.len, h.le1, h.le2, h.eof, h.rest, h.term⟩
    by_cases h1 : v.bufValueStart + 1 = c.bufPos
    · rw [if_pos (by simpa using h1), M.run_set, M.run_modify]
      refine .ok (.value (v := ⟨v.isUsingBytesBuf, v.bufValueStart + 1, false⟩) ⟨h.len, h.le1, h.le2, h.eof, h.rest, h.term⟩ hu (by rintro ⟨⟩)
        hkf rfl rfl (by dsimp only; omega) ?_ hus (by rintro ⟨⟩))
      dsimp only
      rw [hdl]
      congr 1
      rw [← h1]
      simp
    · rw [if_neg (by simpa using h1), if_neg (by simp; omega), M.run_bind, slice_eq (by omega) (by omega)]
      dsimp only
      rw [M.run_set, M.run_modify]
      refine .ok (.value (v := ⟨true, c.bufPos, false⟩) ⟨h.len, h.le1, h.le2, h.eof, h.rest, h.term⟩ hu
        (by rintro ⟨⟩) hkf rfl rfl (Nat.le_refl _) ?_ (by rintro ⟨⟩) (by rintro ⟨⟩))
      dsimp only
      rw [hdl]
      simp

theorem vSkipFinal_rel : OpRel (SX dbg stale) (Fin stale false) (BRel (N := N) (dbg := dbg) stale (.value false true)) ByteSource.vSkipFinal ByteSource.vSkipFinal
    (fun _ => BRel stale .valueFinal) := by
  intro c a hr
  cases hr with
  | value h hu hk hkf v hv hsk hs hacc hus hl =>
    have hl := hl rfl
    have hlt : c.bufPos ≤ c.buf.length := by have := h.len; have := h.le2; have := h.le1; omega
    show ORes stale _ (vSkipFinal.run c) (AbsSrc.vDropLast.run a)
    unfold vSkipFinal AbsSrc.vDropLast
    rw [M.run_bind, vState_run hv]
    dsimp only
    rw [M.run_modify, M.run_modify]
    refine .ok (.valueFinal (v := { v with skipFinalByte := true }) ⟨h.len, h.le1, h.le2, h.eof, h.rest, h.term⟩ hu rfl rfl hl ?_ hus)
    dsimp only
    rw [hacc, List.dropLast_append_of_ne_nil (take_drop_ne_nil _ _ _ hl hlt), take_drop_last _ _ _ hl hlt]

theorem vPush_rel (bs : Bytes) : OpRel (SX dbg stale) (Fin stale false) (BRel (N := N) (dbg := dbg) stale (.value false false)) (ByteSource.vPush bs) (ByteSource.vPush bs)
    (fun _ => BRel stale (.value false false)) := by
  intro c a hr
  cases hr with
  | value h hu hk hkf v hv hsk hs hacc hus hl =>
    have hlt : c.bufPos ≤ c.buf.length := by have := h.len; have := h.le2; have := h.le1; omega
    show ORes stale _ ((vPush bs).run c) ((AbsSrc.vPush bs).run a)
    unfold vPush AbsSrc.vPush
    rw [M.run_bind, vState_run hv]
    dsimp only
    rw [M.run_bind, M.run_get]
    dsimp only
    by_cases h1 : v.bufValueStart < c.bufPos
    · rw [if_pos h1, M.run_bind, slice_eq (by omega) (by omega)]
      dsimp only
      rw [M.run_set, M.run_modify]
      refine .ok (.value (v := { v with isUsingBytesBuf := true, bufValueStart := c.bufPos }) ⟨h.len, h.le1, h.le2, h.eof, h.rest, h.term⟩ hu
        (by rintro ⟨⟩) hkf rfl hsk (Nat.le_refl _) ?_ (by rintro ⟨⟩) (by rintro ⟨⟩))
      dsimp only
      rw [hacc]
      simp
    · rw [if_neg h1, M.run_set, M.run_modify]
      have h2 : v.bufValueStart = c.bufPos := by omega
      refine .ok (.value (v := { v with isUsingBytesBuf := true }) ⟨h.len, h.le1, h.le2, h.eof, h.rest, h.term⟩ hu
        (by rintro ⟨⟩) hkf rfl hsk hs ?_ (by rintro ⟨⟩) (by rintro ⟨⟩))
      dsimp only
      rw [hacc, h2]
      simp

theorem vGet_common {c : BufSrcD N dbg} {a : AbsSrc} {k : Bool} (b : Bool) (v : VReader) (hv : c.v = some v) (h : Base c a) (hu : c.bufUsed = true → stale = true)
    (hk : k = true → Avail c) (stop : Nat) (hstop : stop = if v.skipFinalByte then c.bufPos - 1 else c.bufPos)
    (h0 : v.skipFinalByte = true → 0 < c.bufPos)
    (hs : v.bufValueStart ≤ stop) (hacc : a.acc = c.valueBuf ++ (c.buf.take stop).drop v.bufValueStart)
    (hus : v.isUsingBytesBuf = false → c.valueBuf = []) :
    ORes stale (fun _ => BRel stale (.held k b)) ((vGet b).run c) (AbsSrc.vGet.run a) := by
  have hlt : c.bufPos ≤ c.buf.length := by have := h.len; have := h.le2; have := h.le1; omega
  have hst : stop ≤ c.bufPos := by rw [hstop]; split <;> omega
  unfold vGet AbsSrc.vGet
  rw [M.run_bind, vState_run hv]
  dsimp only
  rw [M.run_bind, M.run_get]
  dsimp only
  rw [if_neg (by simp only [Bool.and_eq_true, beq_iff_eq, not_and]; intro h1 h2; have := h0 h1; omega), ← hstop]
  cases hus' : v.isUsingBytesBuf with
  | true =>
    rw [if_pos rfl, M.run_bind, slice_eq hs (by omega)]
    dsimp only
    cases b with
    | true =>
      rw [if_pos rfl, M.run_set, M.run_pure]
      exact .ok (.heldValue ⟨h.len, h.le1, h.le2, h.eof, h.rest, h.term⟩ hu hk rfl hacc)
    | false =>
      rw [if_neg Bool.false_ne_true, M.run_set, M.run_pure]
      exact .ok (.heldVec ⟨h.len, h.le1, h.le2, h.eof, h.rest, h.term⟩ hu hk _ rfl hacc)
  | false =>
    rw [if_neg Bool.false_ne_true]
    by_cases hd : (dbg && c.bufUsed) = true
    · rw [if_pos hd]
      simp only [Bool.and_eq_true] at hd
      exact .exempt _ ⟨hu hd.2, .inr ⟨hd.1, rfl⟩⟩
    rw [if_neg hd, M.run_set, M.run_pure]
    refine .ok (.heldBuf ⟨h.len, h.le1, h.le2, h.eof, h.rest, h.term⟩ hk v.bufValueStart stop rfl hs ?_ ?_)
    · rw [← h.len]; omega
    · rw [hacc, hus hus']; rfl

theorem vGet_rel (b : Bool) : OpRel (SX dbg stale) (Fin stale false) (BRel (N := N) (dbg := dbg) stale (.value true false)) (ByteSource.vGet b) (ByteSource.vGet b)
    (fun _ => BRel stale (.held true b)) := by
  intro c a hr
  cases hr with
  | value h hu hk hkf v hv hsk hs hacc hus hl =>
    exact vGet_common b v hv h hu hk c.bufPos (by rw [hsk]; rfl) (by rw [hsk]; rintro ⟨⟩) hs hacc hus

theorem vGetFinal_rel (b : Bool) : OpRel (SX dbg stale) (Fin stale false) (BRel (N := N) (dbg := dbg) stale .valueFinal) (ByteSource.vGet b) (ByteSource.vGet b)
    (fun _ => BRel stale (.held false b)) := by
  intro c a hr
  cases hr with
  | valueFinal h hu v hv hsk hs hacc hus =>
    exact vGet_common b v hv h hu (by rintro ⟨⟩) (c.bufPos - 1) (by rw [hsk]; rfl) (fun _ => by omega) (by omega) hacc hus

theorem vPeek_rel (hN : 0 < N) : OpRel (SX dbg stale) (Fin stale false) (BRel (N := N) (dbg := dbg) stale (.value false false)) ByteSource.vPeek ByteSource.vPeek
    (fun _ => BRel stale (.value true false)) := by
  intro c a hr
  cases hr with
  | value h hu hk hkf v hv hsk hs hacc hus hl =>
    have hlen := h.len
    have hle1 := h.le1
    have hle2 := h.le2
    show ORes stale _ (vPeek.run c) (AbsSrc.peekByte.run a)
    unfold vPeek
    rw [M.run_bind, vState_run hv]
    dsimp only
    rw [M.run_bind, M.run_get]
    dsimp only
    rw [if_neg (by rw [hsk]; exact Bool.false_ne_true)]
    by_cases hp : c.bufPos < c.bufEndPos
    · obtain ⟨b, t, h1, h2, _⟩ := h.cons hp
      rw [if_pos hp, M.run_bind, index_eq h1, absPeek_cons h2]
      exact .ok (.value h hu (fun _ => .inl hp) (by rintro ⟨⟩) v hv hsk hs hacc hus (by rintro ⟨⟩))
    have hpe : c.bufPos = c.bufEndPos := by omega
    rw [if_neg hp]
    by_cases hcond : (v.isUsingBytesBuf || decide (c.bufPos ≥ c.buf.length)) = true
    · rw [if_pos hcond]
      -- after saving the bytes
      have hsave : ∃ c1 : BufSrcD N dbg, (vSave v c).run c = .ok () c1 ∧ c1.sched = c.sched ∧ c1.buf = c.buf ∧ c1.bufPos = c.bufPos ∧
          c1.bufEndPos = c.bufEndPos ∧ c1.bufUsed = c.bufUsed ∧ c1.reachedEof = c.reachedEof ∧
          ∃ v1 : VReader, c1.v = some v1 ∧ v1.skipFinalByte = false ∧ v1.bufValueStart = 0 ∧
            a.acc = c1.valueBuf ∧ (v1.isUsingBytesBuf = false → c1.valueBuf = []) := by
        unfold vSave
        by_cases h1 : v.bufValueStart < c.bufEndPos
        · rw [if_pos h1, M.run_bind, slice_eq (by omega) (by omega)]
          refine ⟨_, rfl, rfl, rfl, rfl, rfl, rfl, rfl, _, rfl, hsk, rfl, ?_, by rintro ⟨⟩⟩
          rw [hacc, hpe]
        · rw [if_neg h1]
          refine ⟨_, rfl, rfl, rfl, rfl, rfl, rfl, rfl, _, rfl, hsk, rfl, ?_, hus⟩
          have h2 : v.bufValueStart = c.bufPos := by omega
          rw [hacc, h2]
          simp
      obtain ⟨c1, hrun, e1, e2, e3, e4, e5, e6, v1, hv1, hsk1, hs1, hacc1, hus1⟩ := hsave
      have hb1 : Base c1 a := ⟨by rw [e2]; exact h.len, by rw [e3, e4]; exact h.le1, by rw [e4]; exact h.le2, by rw [e6, e3, e4]; exact h.eof,
        by rw [e2, e3, e4, e6, e1]; exact h.rest, by rw [e6, e1]; exact h.term⟩
      have hpe1 : c1.bufPos = c1.bufEndPos := by rw [e3, e4]; exact hpe
      rw [M.run_bind, hrun]
      dsimp only
      have hf := fillBuffer_spec 0 hb1 hpe1 hN
      rw [M.run_bind]
      rcases hrun2 : (fillBuffer 0).run c1 with ⟨r, c'⟩ | ⟨e, c'⟩
      · rw [hrun2] at hf
        have hb := hb1.filled hpe1 (by omega) hf
        dsimp only
        cases hf with
        | same he =>
          obtain ⟨h1, h2⟩ := hb1.nil he
          rw [absPeek_none h1 h2]
          have h0 : c1.bufPos = 0 := by
            have := hkf rfl (by rw [← e6]; exact he)
            omega
          refine .ok (.value hb1 (by rw [e5]; exact hu) (fun _ => .inr he) (by rintro ⟨⟩) v1 hv1 hsk1 (by omega) ?_ hus1 (by rintro ⟨⟩))
          rw [hacc1, h0]
          simp
        | eof he hr ht es =>
          rw [absPeek_none hr ht]
          refine .ok (.value hb (by dsimp only; rw [e5]; exact hu) (fun _ => .inr rfl) (by rintro ⟨⟩) v1 hv1 hsk1 (by dsimp only; omega) ?_ hus1 (by rintro ⟨⟩))
          dsimp only
          rw [hacc1]
          simp
        | some he b r hr buf stop es h1 h2 h3 h4 h5 h6 h7 =>
          rw [if_pos rfl, M.run_bind, M.run_get]
          dsimp only
          rw [M.run_bind, index_eq h7, absPeek_cons hr]
          refine .ok (.value hb (by dsimp only; rw [e5]; exact hu) (fun _ => .inl h1) (by rintro ⟨⟩) v1 hv1 hsk1 (by dsimp only; omega) ?_ hus1 (by rintro ⟨⟩))
          dsimp only
          rw [hacc1]
          simp
      · rw [hrun2] at hf
        have hfin := fun k (hio : e = .io k) => Filled.fin (stale := stale) hb1 (Nat.zero_le _) (hio ▸ hf)
        cases hf with
        | used he hu' => exact .exempt _ (.used (hu (by rw [← e5]; exact hu')))
        | err he hu' hr code ht es =>
          rw [absPeek_err hr ht]
          exact .io _ _ (hfin _ rfl)
    · rw [if_neg hcond]
      have hlt : c.bufEndPos < N := by
        simp only [Bool.or_eq_true, decide_eq_true_eq, not_or] at hcond
        omega
      have hf := fillBuffer_spec c.bufEndPos h hpe hlt
      rw [M.run_bind]
      rcases hrun2 : (fillBuffer c.bufEndPos).run c with ⟨r, c'⟩ | ⟨e, c'⟩
      · rw [hrun2] at hf
        have hb := h.filled hpe (by omega) hf
        dsimp only
        cases hf with
        | same he =>
          obtain ⟨h1, h2⟩ := h.nil he
          rw [absPeek_none h1 h2]
          exact .ok (.value h hu (fun _ => .inr he) (by rintro ⟨⟩) v hv hsk hs hacc hus (by rintro ⟨⟩))
        | eof he hr ht es =>
          rw [absPeek_none hr ht]
          refine .ok (.value hb hu (fun _ => .inr rfl) (by rintro ⟨⟩) v hv hsk (by dsimp only; omega) ?_ hus (by rintro ⟨⟩))
          dsimp only
          rw [hacc, hpe]
        | some he b r hr buf stop es h1 h2 h3 h4 h5 h6 h7 =>
          rw [if_pos rfl, M.run_bind, M.run_get]
          dsimp only
          rw [M.run_bind, index_eq h7, absPeek_cons hr]
          refine .ok (.value hb hu (fun _ => .inl h1) (by rintro ⟨⟩) v hv hsk (by dsimp only; omega) ?_ hus (by rintro ⟨⟩))
          dsimp only
          rw [hacc, h4, hpe]
      · rw [hrun2] at hf
        have hfin := fun k (hio : e = .io k) => Filled.fin (stale := stale) h (Nat.le_refl _) (hio ▸ hf)
        cases hf with
        | used he hu' => exact .exempt _ (.used (hu hu'))
        | err he hu' hr code ht es =>
          rw [absPeek_err hr ht]
          exact .io _ _ (hfin _ rfl)

theorem getStrPeek_common {c : BufSrcD N dbg} {a : AbsSrc} {b k : Bool} (hb : b = true ∨ ∀ bs, c.val ≠ some (.vec bs)) (h : BRel stale (.held k b) c a) :
    getStrPeek.run c = match Utf8.toStrUnchecked a.acc with
      | some t => .ok t c
      | none => .err (.panic (.internal .invalidUtf8)) c := by
  unfold getStrPeek
  rw [M.run_bind, M.run_get]
  dsimp only
  cases h with
  | heldBuf h hk start stop hval h1 h2 hacc =>
    rw [hval]
    dsimp only
    rw [M.run_bind, slice_eq h1 (by rw [h.len]; exact h2)]
    dsimp only
    rw [toStr_run, hacc]
  | heldValue h hu hk hval hacc =>
    rw [hval]
    dsimp only
    rw [toStr_run, hacc]
  | heldVec h hu hk bs hval hacc =>
    rcases hb with hb | hb
    · cases hb
    · exact absurd hval (hb bs)

theorem getStr_common {c : BufSrcD N dbg} {a : AbsSrc} {b : Bool} (hb : b = true ∨ ∀ bs, c.val ≠ some (.vec bs)) (h : BRel stale (.held false b) c a) :
    ORes stale (fun _ => BRel stale (.idle false)) (getStr.run c) (AbsSrc.getStr.run a) := by
  have h' : BRel (N := N) (dbg := dbg) stale (.held false b) { c with bufUsed := false } a := by
    cases h with
    | heldBuf h hk start stop hval h1 h2 hacc => exact .heldBuf ⟨h.len, h.le1, h.le2, h.eof, h.rest, h.term⟩ hk start stop hval h1 h2 hacc
    | heldValue h hu hk hval hacc => exact .heldValue ⟨h.len, h.le1, h.le2, h.eof, h.rest, h.term⟩ (fun h => by cases h) hk hval hacc
    | heldVec h hu hk bs hval hacc => exact .heldVec ⟨h.len, h.le1, h.le2, h.eof, h.rest, h.term⟩ (fun h => by cases h) hk bs hval hacc
  have hbase := h.base
  have hp := getStrPeek_common (c := { c with bufUsed := false }) hb h'
  unfold getStr AbsSrc.getStr
  rw [M.run_bind, M.run_modify]
  dsimp only
  rw [M.run_bind, hp]
  cases Utf8.toStrUnchecked a.acc with
  | none => exact .err _ _ _
  | some t => exact .ok (.idle ⟨hbase.len, hbase.le1, hbase.le2, hbase.eof, hbase.rest, hbase.term⟩ (fun h => by cases h) (by rintro ⟨⟩))

theorem getStr_rel : OpRel (SX dbg stale) (Fin stale false) (BRel (N := N) (dbg := dbg) stale (.held false true)) ByteSource.getStr ByteSource.getStr (fun _ => BRel stale (.idle false)) :=
  fun _ _ h => getStr_common (.inl rfl) h

theorem getStrPeek_rel : OpRel (SX dbg stale) (Fin stale false) (BRel (N := N) (dbg := dbg) stale (.held false true)) ByteSource.getStrPeek ByteSource.getStrPeek
    (fun _ => BRel stale (.held false true)) := by
  intro c a h
  show ORes stale _ (getStrPeek.run c) (AbsSrc.getStrPeek.run a)
  rw [getStrPeek_common (.inl rfl) h]
  unfold AbsSrc.getStrPeek
  dsimp only
  cases Utf8.toStrUnchecked a.acc with
  | none => exact .err _ _ _
  | some t => exact .ok h

theorem getString_rel (b : Bool) : OpRel (SX dbg stale) (Fin stale false) (BRel (N := N) (dbg := dbg) stale (.held false b)) ByteSource.getString ByteSource.getString
    (fun _ => BRel stale (.idle false)) := by
  intro c a h
  show ORes stale _ (getString.run c) (AbsSrc.getStr.run a)
  unfold getString
  rw [M.run_bind, M.run_get]
  dsimp only
  by_cases hv : ∃ bs, c.val = some (.vec bs)
  · obtain ⟨bs, hv⟩ := hv
    have hbase := h.base
    rw [hv]
    dsimp only
    rw [M.run_bind, M.run_set]
    dsimp only
    rw [toStr_run]
    unfold AbsSrc.getStr
    dsimp only
    cases h with
    | heldBuf h hk start stop hval h1 h2 hacc => rw [hv] at hval; cases hval
    | heldValue h hu hk hval hacc => rw [hv] at hval; cases hval
    | heldVec h hu hk bs' hval hacc =>
      rw [hv] at hval
      cases hval
      rw [hacc]
      cases Utf8.toStrUnchecked bs with
      | none => exact .err _ _ _
      | some t => exact .ok (.idle ⟨hbase.len, hbase.le1, hbase.le2, hbase.eof, hbase.rest, hbase.term⟩ hu (by rintro ⟨⟩))
  · have hne : ∀ bs, c.val ≠ some (.vec bs) := fun bs hb => hv ⟨bs, hb⟩
    have := getStr_common (.inr hne) h
    split
    · rename_i bs heq; exact absurd heq (hne bs)
    · exact this

theorem peekByteHeld_rel (b : Bool) : OpRel (SX dbg stale) (Fin stale false) (BRel (N := N) (dbg := dbg) stale (.held true b)) ByteSource.peekByte ByteSource.peekByte
    (fun _ => BRel stale (.held true b)) := by
  intro c a h
  have hav : Avail c := by
    cases h with
    | heldBuf h hk start stop hval h1 h2 hacc => exact hk rfl
    | heldValue h hu hk hval hacc => exact hk rfl
    | heldVec h hu hk bs hval hacc => exact hk rfl
  show ORes stale _ (peekByte.run c) (AbsSrc.peekByte.run a)
  rcases peekByte_avail h.base hav with ⟨x, h1, h2⟩ | ⟨h1, h2⟩
  · rw [h1, h2]; exact .ok h
  · rw [h1, h2]; exact .ok h

/-- The reader with its internal buffer (of any non-zero size) behaves like the reader on the list of bytes -/
def simS (dbg stale : Bool) (hN : 0 < N) (settings : Settings) : Sim (BufSrcD N dbg) AbsSrc where
  rel := BRel stale
  X := SX dbg stale
  fin := Fin stale
  finOf := by
    intro p c a hp h
    refine ⟨h.base.bnd, fun hu' => .inl ?_⟩
    cases h with
    | idle h hu => exact hu hu'
    | value h hu => exact hu hu'
    | valueFinal h hu => exact hu hu'
    | heldBuf => exact absurd rfl (hp.out _ _)
    | heldValue => exact absurd rfl (hp.out _ _)
    | heldVec => exact absurd rfl (hp.out _ _)
  finHeld _ _ _ _ h := ⟨h.base.bnd, fun _ => .inr rfl⟩
  finMono _ h := ⟨h.1, fun _ => .inr rfl⟩
  set1 := settings
  set2 := settings
  weakenIdle := by rintro c a ⟨h, hu, hk⟩; exact .idle h hu (by rintro ⟨⟩)
  weakenValue := by
    intro l c a h
    cases h with
    | value h hu hk hkf v hv hsk hs hacc hus hl => exact .value h hu hk hkf v hv hsk hs hacc hus (by rintro ⟨⟩)
  weakenHeld := by
    intro b c a h
    cases h with
    | heldBuf h hk start stop hval h1 h2 hacc => exact .heldBuf h (by rintro ⟨⟩) start stop hval h1 h2 hacc
    | heldValue h hu hk hval hacc => exact .heldValue h hu (by rintro ⟨⟩) hval hacc
    | heldVec h hu hk bs hval hacc => exact .heldVec h hu (by rintro ⟨⟩) bs hval hacc
  peekByte := peekByte_rel hN
  peekByteHeld := peekByteHeld_rel
  skipPeekedByte := skipPeekedByte_rel
  vNew := vNew_rel
  vPeek := vPeek_rel hN
  vConsume := vConsume_rel
  vSkipPrevious := vSkipPrevious_rel
  vSkipFinal := vSkipFinal_rel
  vPush := vPush_rel
  vGetFinal := vGetFinal_rel
  vGet := vGet_rel
  getString := getString_rel
  getStr := getStr_rel
  getStrPeek := getStrPeek_rel
  remaining := by
    intro p c a h
    left
    have hb := h.base
    show BufSrc.remaining c = a.rest.length
    have := hb.len; have := hb.le1; have := hb.le2
    rw [hb.rest]
    unfold remaining
    simp only [List.length_append, List.length_drop, List.length_take]
    split <;> simp <;> omega
  comments := id
  commentsX := by intro h1 h2; rw [h1] at h2; cases h2
  trailingComma := id
  trailingCommaX := by intro h1 h2; rw [h1] at h2; cases h2
  multi := id
  multiX := by intro h1 h2; rw [h1] at h2; cases h2
  depth := fun m h => ⟨m, h, Nat.le_refl _⟩
  depthX := fun m h => .inl h
  restrict := id
  restrictX := by intro h1 h2; rw [h1] at h2; cases h2

/-- with debug assertions, from the start -/
abbrev sim (hN : 0 < N) (settings : Settings) : Sim (BufSrc N) AbsSrc := simS true false hN settings

end Verif.BufSrc
