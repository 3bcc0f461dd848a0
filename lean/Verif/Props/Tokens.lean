import Verif.Proofs.Abs.Token
import Verif.Props.Peeking
/-!
# Numbers, strings and names, at any place of an arbitrary input

The theorems are about the next value (or name) behind any calls `pre`, whatever the rest of the input looks like. The next value is described by
`AtValue`: `peek` returned its type, and `rest` is the input from the reported position on.
-/

namespace Verif.Props
open Reader Abs Json Utf8 Usage Position

variable {N : Nat} {st : Settings} {sched : List ReadEvent} {bytes : Bytes} {pre : List Op} {rs : List (Except RErr Out)} {P : Position} {rest : Bytes}

/-- The calls `pre` have the results `rs`, none of them is a panic, a syntax or IO error or a rejected number; then `peek` returns `t`, the position is
`P` and the part of the input behind it is `rest`. -/
structure AtValue (N : Nat) (st : Settings) (sched : List ReadEvent) (bytes : Bytes) (pre : List Op) (rs : List (Except RErr Out)) (t : ValueType) (P : Position) (rest : Bytes) : Prop where
  delivers : Delivers sched bytes none
  results : rs.length = pre.length
  numbers : ∀ t l, Except.error (.unsupportedNumberValue t l) ∉ rs
  peeked : runReader N st sched (pre ++ [.peek, .currentPosition false]) = rs ++ [.ok (.type t), .ok (.position P)]
  rest : bytes.drop P.dataPos = rest

/-- Same for a member name: the calls have left the reader in front of a member name (or the end of the object), and `has_next` returned `true` -/
structure AtName (N : Nat) (st : Settings) (sched : List ReadEvent) (bytes : Bytes) (pre : List Op) (rs : List (Except RErr Out)) (P : Position) (rest : Bytes) : Prop where
  delivers : Delivers sched bytes none
  mode : ∃ m, Mode.init.after pre rs = some m ∧ m.canName = true
  numbers : ∀ t l, Except.error (.unsupportedNumberValue t l) ∉ rs
  peeked : runReader N st sched (pre ++ [.hasNext, .currentPosition false]) = rs ++ [.ok (.bool true), .ok (.position P)]
  rest : bytes.drop P.dataPos = rest

/-- the position behind `bs`, which has no line break -/
def _root_.Verif.Position.behind (P : Position) (bs : Bytes) : Position := { P with column := P.column + charCount bs, dataPos := P.dataPos + bs.length }

/-- Characters which may follow a number: `,` `]` `}` `:` whitespace and `/`, or the end of the input -/
def Delimited (r : Bytes) : Prop := ∀ b, r.head? = some b → b ∈ [0x2C, 0x5D, 0x7D, 0x3A, 0x20, 0x09, 0x0A, 0x0D, 0x2F]

theorem delimited_iff {r : Bytes} : Delimited r ↔ SepOk r := by
  have h : ∀ b : UInt8, b ∈ [0x2C, 0x5D, 0x7D, 0x3A, 0x20, 0x09, 0x0A, 0x0D, 0x2F] ↔ isValueSeparator b = true :=
    forallByte (P := fun b => b ∈ [0x2C, 0x5D, 0x7D, 0x3A, 0x20, 0x09, 0x0A, 0x0D, 0x2F] ↔ isValueSeparator b = true) (by decide +kernel)
  unfold Delimited SepOk
  simp only [h]

/-- no character of a number follows -/
def NumberEnds (r : Bytes) : Prop := ∀ b, r.head? = some b → isNumberChar b = false

theorem runOps_cons_err {o : Op} {l : List Op} {s s' : St} {e : RErr} (h : (runOp o).run s = .err e s') (hf : e.fatal = true) : runOps (o :: l) s = [.error e] := by
  rw [runOps, h]; simp [hf]

theorem runOps_cons_err1 {o : Op} {s s' : St} {e : RErr} (h : (runOp o).run s = .err e s') : runOps [o] s = [.error e] := by
  rw [runOps_one, h]

theorem runOps_cons_ok {o : Op} {l : List Op} {s s' : St} {x : Out} (h : (runOp o).run s = .ok x s') (hf : o ≠ .consumeTrailingWhitespace) :
    runOps (o :: l) s = .ok x :: runOps l s' := by
  rw [runOps, h]; simp [hf]

theorem runOps_cut {o : Op} {t : List Op} : ∀ (a : List Op) {s : St}, a.length < (runOps (a ++ o :: t) s).length → (runOps (a ++ [o]) s).length = a.length + 1 := by
  intro a
  induction a with
  | nil => intro s _; rw [List.nil_append, runOps_one]; rfl
  | cons x a ih =>
    intro s h
    rw [List.cons_append, runOps] at h ⊢
    cases hr : (runOp x).run s with
    | ok o s' =>
      rw [hr] at h
      simp only at h ⊢
      split
      · rename_i hc; rw [if_pos hc] at h; simp at h
      · rename_i hc
        rw [if_neg hc] at h
        simp only [List.length_cons] at h ⊢
        rw [ih (by omega)]
    | err e s' =>
      rw [hr] at h
      simp only at h ⊢
      split
      · rename_i hc; rw [if_pos hc] at h; simp at h
      · rename_i hc
        rw [if_neg hc] at h
        simp only [List.length_cons] at h ⊢
        rw [ih (by omega)]

/-- the state of the reader behind the calls -/
theorem behind_pre {op : Op} {tail : List Op} {r : List (Except RErr Out)} (hN : 0 < N) (hd : Delivers sched bytes none) (hl : rs.length = pre.length)
    (hn : ∀ t l, Except.error (.unsupportedNumberValue t l) ∉ rs) (hr : r ≠ []) (h : runReader N st sched (pre ++ op :: tail) = rs ++ r) :
    ∃ m s, Inv st bytes True m s ∧ (∀ m2, Mode.init.after pre rs = some m2 → m2 = m) ∧ (∀ tail, runReader N st sched (pre ++ tail) = rs ++ runOps tail s) ∧ runOps (op :: tail) s = r := by
  have hr' := runReader_abs hN hd (st := st)
  rw [hr'] at h
  unfold runAbs at h
  have hlen : (runOps (pre ++ [op]) (new (σ := AbsSrc) ⟨bytes, none, []⟩ st)).length = pre.length + 1 := by
    refine runOps_cut pre (t := tail) ?_
    rw [h, List.length_append, hl]
    have := List.length_pos_iff.2 hr
    omega
  have h0 : Inv st bytes True .init (new (σ := AbsSrc) ⟨bytes, none, []⟩ st) := invT_new bytes none (st := st)
  obtain ⟨s, g, m, hg, hm, hI, hs⟩ := reach_inv pre h0 hlen
  have hp : runOps pre (new (σ := AbsSrc) ⟨bytes, none, []⟩ st) = rs ∧ runOps (op :: tail) s = r := by
    rw [hs] at h
    refine List.append_inj h ?_
    have h1 := hs [op]
    have := congrArg List.length h1
    rw [hlen, List.length_append, runOps_one] at this
    simp at this
    omega
  have hg : g := hg (by rw [hp.1]; rintro r hr t l rfl; exact hn t l hr) trivial
  have hg : g = True := by simp [hg]
  subst hg
  refine ⟨m, s, hI, by rw [hp.1] at hm; exact hm, fun tail => ?_, hp.2⟩
  rw [hr', ← hp.1]
  exact hs tail

theorem Inv.invT {m : Mode} {g : Prop} {s : St} (h : Inv st bytes g m s) : InvT st bytes g m s := by unfold InvT; rw [noTerm_of_none h.term]; exact h

/-- the state of the reader in front of the value -/
theorem here_state {t : ValueType} (hN : 0 < N) (h : AtValue N st sched bytes pre rs t P rest) :
    ∃ c p l pos r, InvP st bytes True c p l pos r ∧ isValue p = true ∧ typeOf p = t ∧ c.emn = false ∧ rest = tokBytes p ++ r ∧
      P = currentPosition (stp st c pos (some p) r) false ∧
      ∀ op tail, token op = true → runReader N st sched (pre ++ op :: tail) = rs ++ runOps (op :: tail) (stp st c pos (some p) r) := by
  obtain ⟨m, s, hI, _, hs, hp⟩ := behind_pre hN h.delivers h.results h.numbers (by simp) h.peeked
  have hw : Wp (runOp .peek) s (fun t s' => ∃ c p l pos r, c.emn = false ∧ isValue p = true ∧ t = .type (typeOf p) ∧ s' = stp st c pos (some p) r ∧ InvP st bytes True c p l pos r) (fun _ _ => True) := by
    cases hI with
    | @«at» c _ hA =>
      cases ha : c.mode.allowed st.allowMultipleTopLevel .peek with
      | true =>
        obtain ⟨he, hc⟩ := canValue_iff.1 ha
        refine Wp.bind' ((peek_wp (K := fun _ => True) hA hc he).mono (fun _ _ h => h) fun _ _ _ => trivial) ?_
        rintro _ _ ⟨p, l, pos, r, hv, rfl, rfl, hP, _⟩
        exact Wp.pure ⟨c, p, l, pos, r, he, hv, rfl, rfl, hP⟩
      | false => exact (not_allowed_panics hA.looks ha nofun).wp (E := fun _ _ => True) fun _ _ => trivial
    | @active c l pos r x y h1 h2 h3 h4 => exact (active_panics (m := c.mode) (b := st.allowMultipleTopLevel) rfl rfl).wp (E := fun _ _ => True) fun _ _ => trivial
  unfold Wp at hw
  cases hm : (runOp .peek).run s with
  | err e s' => rw [runOps, hm] at hp; simp at hp
  | ok o s' =>
    rw [hm] at hw
    obtain ⟨c, p, l, pos, r, he, hv, rfl, rfl, hP⟩ := hw
    rw [runOps_cons_ok hm nofun] at hp
    simp only [List.cons.injEq, Except.ok.injEq, Out.type.injEq] at hp
    obtain ⟨rfl, hp⟩ := hp
    have hpos : P = currentPosition (stp st c pos (some p) r) false := by
      have : runOps [.currentPosition false] (stp st c pos (some p) r) = [.ok (.position (currentPosition (stp st c pos (some p) r) false))] := rfl
      rw [this] at hp
      simpa using hp.symm
    obtain ⟨_, hb, hpo⟩ := hP.good trivial
    refine ⟨c, p, l, pos, r, hP, hv, rfl, he, ?_, hpos, ?_⟩
    · rw [← h.rest, hpos]
      show bytes.drop pos.byte = _
      rw [hpo, posOf_eq, hb, ← List.append_assoc, List.drop_left]
    · intro op tail ht
      rw [hs]
      obtain ⟨o, hpk⟩ := looked rfl hm
      rw [after_pk hpk (Inv.invT (.at (.p hP))) ht]

theorem lineBreaks_none : ∀ {bs : Bytes}, NoBreak bs → lineBreaks bs = 0
  | [], _ => rfl
  | b :: bs, h => by
    rw [lineBreaks_other bs (fun hb => h.1 (by simp [hb])) (fun hb => h.2 (by simp [hb]))]
    exact lineBreaks_none ⟨fun hb => h.1 (by simp [hb]), fun hb => h.2 (by simp [hb])⟩

theorem any_break {bs : Bytes} (h : NoBreak bs) : bs.any isBreak = false := by
  rw [List.any_eq_false]
  intro b hb
  simp only [isBreak, Bool.or_eq_true, beq_iff_eq, not_or]
  exact ⟨fun e => h.1 (e ▸ hb), fun e => h.2 (e ▸ hb)⟩

theorem over_noBreak (pos : Pos) {bs : Bytes} (h : NoBreak bs) : pos.over bs = ⟨pos.line, pos.col + charCount bs, pos.byte + bs.length⟩ := by
  have h1 := posRun_line bs pos false
  have h2 := posRun_byte bs pos false
  have h3 := posRun_col bs pos false nofun
  rw [lineBreaks_none h] at h1
  rw [any_break h, lastLine_of_no bs (any_break h)] at h3
  unfold Pos.over
  generalize (posRun (pos, false) bs).1 = p at *
  cases p
  simp at h1 h2 h3
  simp [h1, h2, h3]

theorem position_behind {c c' : Ctx} {pos : Pos} {bs r r' : Bytes} {p : Option Peeked} (h : NoBreak bs) :
    currentPosition (stp st c' (pos.over bs) none r') false = (currentPosition (stp st c pos p r) false).behind bs := by
  rw [over_noBreak pos h]
  rfl

/-! ## Numbers -/

theorem number_state (hN : 0 < N) (h : AtValue N st sched bytes pre rs .number P rest) :
    ∃ c l pos, InvP st bytes True c .numberStart l pos rest ∧ c.Slot l ∧ P = currentPosition (stp st c pos (some .numberStart) rest) false ∧
      ∀ op tail, token op = true → runReader N st sched (pre ++ op :: tail) = rs ++ runOps (op :: tail) (stp st c pos (some .numberStart) rest) := by
  obtain ⟨c, p, l, pos, r, hP, hv, ht, _, rfl, hpos, hrun⟩ := here_state hN h
  cases typeOf_number hv ht
  exact ⟨c, l, pos, hP, hP.lead.slot rfl, hpos, hrun⟩

/-- C04: if the characters of the number are a well formed number which is followed by a delimiter or the end of the input, and the number is not rejected
by the number restriction, then exactly these characters are returned, and the reader is behind them -/
theorem C04_number_ok (hN : 0 < N) (h : AtValue N st sched bytes pre rs .number P rest) {bs r : Bytes} (hr : rest = bs ++ r) (hn : IsNumber bs) (hd : Delimited r)
    (hx : st.restrictNumberValues = true → ¬ UnsupportedNumber bs) :
    ∃ t, enc t = bs ∧ ∀ op ∈ [Op.nextNumberAsStr, .nextNumberAsString],
      runReader N st sched (pre ++ [op, .currentPosition false]) = rs ++ [.ok (.text t), .ok (.position (P.behind bs))] := by
  obtain ⟨c, l, pos, hP, hs, rfl, hrun⟩ := number_state hN h
  subst hr
  have hx : ¬ Restricted st bs := fun h => by rw [restricted_iff] at h; exact hx h.1 h.2
  have hd := delimited_iff.1 hd
  have hf := (isNumber_plain hn).noBreak
  refine ⟨asciiText bs, asciiText_enc (isNumber_plain hn), ?_⟩
  intro op hop
  simp only [List.mem_cons, List.not_mem_nil, or_false] at hop
  rw [← position_behind (c' := c.add l (.num bs)) (r' := r) hf]
  rcases hop with rfl | rfl
  · rw [hrun _ _ rfl, runOps_cons_ok (o := .nextNumberAsStr) (M.bind_ok (nextNumberAsStr_ok hs hn hd hx)) nofun]
    rfl
  · rw [hrun _ _ rfl, runOps_cons_ok (o := .nextNumberAsString) (M.bind_ok (nextNumberAsString_ok hs hn hd hx)) nofun]
    rfl

theorem number_err {s : St} {Q : RErr → Prop} (h : ∀ rq, ∃ e s', Q e ∧ (readNumberBytes rq).run s = .err e s') :
    ∀ op ∈ [Op.nextNumberAsStr, .nextNumberAsString], token op = true ∧ ∃ e, Q e ∧ runOps [op] s = [.error e] := by
  intro op hop
  simp only [List.mem_cons, List.not_mem_nil, or_false] at hop
  rcases hop with rfl | rfl
  · obtain ⟨e, s', hq, h⟩ := h true
    exact ⟨rfl, e, hq, runOps_cons_err1 (o := .nextNumberAsStr) (M.bind_err (M.bind_err h))⟩
  · obtain ⟨e, s', hq, h⟩ := h false
    exact ⟨rfl, e, hq, runOps_cons_err1 (o := .nextNumberAsString) (M.bind_err (M.bind_err h))⟩

/-- C04: otherwise (and if the number is not rejected by the number restriction) there is a syntax error -/
theorem C04_number_syntax (hN : 0 < N) (h : AtValue N st sched bytes pre rs .number P rest) (hn : ∀ bs r, rest = bs ++ r → IsNumber bs → ¬ Delimited r)
    (hx : ∀ bs r, rest = bs ++ r → IsNumber bs → NumberEnds r → st.restrictNumberValues = true → ¬ UnsupportedNumber bs) :
    ∀ op ∈ [Op.nextNumberAsStr, .nextNumberAsString], ∃ k l, k ∈ [SyntaxKind.malformedNumber, .trailingDataAfterNumber] ∧
      runReader N st sched (pre ++ [op]) = rs ++ [.error (.syntax k l)] := by
  obtain ⟨c, l, pos, hP, hs, rfl, hrun⟩ := number_state hN h
  obtain ⟨b, t, hb, _⟩ := hP.follow
  have key : ∀ rq, ∃ e s', (∃ k l, k ∈ [SyntaxKind.malformedNumber, .trailingDataAfterNumber] ∧ e = .syntax k l) ∧
      (readNumberBytes rq).run (stp st c pos (some .numberStart) rest) = .err e s' := by
    intro rq
    by_cases hc : ∃ bs r, rest = bs ++ r ∧ IsNumber bs ∧ JsonNumber.NumStop r
    · obtain ⟨bs, r, rfl, h1, h2⟩ := hc
      have hx : ¬ Restricted st bs := fun h => by rw [restricted_iff] at h; exact hx bs r rfl h1 h2 h.1 h.2
      have hd : ¬ SepOk r := fun h => hn bs r rfl h1 (delimited_iff.2 h)
      obtain ⟨l, s', h⟩ := readNumber_trailing (st := st) (pos := pos) (rq := rq) hs.emn h1 h2 hd hx
      exact ⟨_, _, ⟨_, _, by simp, rfl⟩, h⟩
    · obtain ⟨l, s', h⟩ := readNumber_malformed (st := st) (pos := pos) (rq := rq) hs.emn hb hc
      exact ⟨_, _, ⟨_, _, by simp, rfl⟩, h⟩
  intro op hop
  obtain ⟨ht, _, ⟨k, l, hk, rfl⟩, he⟩ := number_err key op hop
  exact ⟨k, l, hk, by rw [hrun _ _ ht, he]⟩

/-- C05: a well formed number is rejected by the number restriction if (and by `C04_number_ok` and `C04_number_syntax` only if) it is unsupported; it is
reported in full -/
theorem C05_number_rejected (hN : 0 < N) (h : AtValue N st sched bytes pre rs .number P rest) {bs r : Bytes} (hr : rest = bs ++ r) (hn : IsNumber bs) (hd : NumberEnds r)
    (hset : st.restrictNumberValues = true) (hx : UnsupportedNumber bs) :
    ∃ t, enc t = bs ∧ ∀ op ∈ [Op.nextNumberAsStr, .nextNumberAsString], ∃ l, runReader N st sched (pre ++ [op]) = rs ++ [.error (.unsupportedNumberValue t l)] := by
  obtain ⟨c, l, pos, hP, hs, rfl, hrun⟩ := number_state hN h
  subst hr
  refine ⟨asciiText bs, asciiText_enc (isNumber_plain hn), ?_⟩
  intro op hop
  obtain ⟨ht, _, ⟨l, rfl⟩, he⟩ := number_err (Q := fun e => ∃ l, e = .unsupportedNumberValue (asciiText bs) l) (s := stp st c pos (some .numberStart) (bs ++ r))
    (fun rq => ⟨_, _, ⟨_, rfl⟩, readNumber_restricted hs.emn hn hd (restricted_iff.2 ⟨hset, hx⟩)⟩) op hop
  exact ⟨l, by rw [hrun _ _ ht, he]⟩

/-- C05: skipping never rejects a well formed number, whatever its size -/
theorem C05_number_skipped (hN : 0 < N) (h : AtValue N st sched bytes pre rs .number P rest) {bs r : Bytes} (hr : rest = bs ++ r) (hn : IsNumber bs) (hd : Delimited r) :
    runReader N st sched (pre ++ [.skipValue, .currentPosition false]) = rs ++ [.ok .unit, .ok (.position (P.behind bs))] := by
  obtain ⟨c, l, pos, hP, hs, rfl, hrun⟩ := number_state hN h
  subst hr
  have hf : Front st c (stp st c pos (some .numberStart) (bs ++ r)) l (.num bs) pos r := Front.of_peeked (v := .num bs) hP.lead hn fun _ => delimited_iff.1 hd
  rw [← position_behind (c' := c.add l (.num bs)) (r' := r) (isNumber_plain hn).noBreak, hrun _ _ rfl,
    runOps_cons_ok (o := .skipValue) (M.bind_ok (hf.skipValue fun n h => hP.depth.stack n h)) nofun]
  rfl

/-- C04: skipping rejects malformed numbers in the same way as reading them -/
theorem C04_number_skip_syntax (hN : 0 < N) (h : AtValue N st sched bytes pre rs .number P rest) (hn : ∀ bs r, rest = bs ++ r → IsNumber bs → ¬ Delimited r) :
    ∃ k l, k ∈ [SyntaxKind.malformedNumber, .trailingDataAfterNumber] ∧ runReader N st sched (pre ++ [.skipValue]) = rs ++ [.error (.syntax k l)] := by
  obtain ⟨c, l, pos, hP, hs, rfl, hrun⟩ := number_state hN h
  obtain ⟨b, t, hb, _⟩ := hP.follow
  have key : ∃ k l s', k ∈ [SyntaxKind.malformedNumber, .trailingDataAfterNumber] ∧ skipNumber.run (stp st c pos (some .numberStart) rest) = .err (.syntax k l) s' := by
    by_cases hc : ∃ bs r, rest = bs ++ r ∧ IsNumber bs ∧ JsonNumber.NumStop r
    · obtain ⟨bs, r, rfl, h1, h2⟩ := hc
      obtain ⟨l, s', h⟩ := skipNumber_trailing (st := st) (pos := pos) hs.emn h1 h2 fun h => hn bs r rfl h1 (delimited_iff.2 h)
      exact ⟨_, _, _, by simp, h⟩
    · obtain ⟨l, s', h⟩ := skipNumber_malformed (st := st) (pos := pos) hs.emn hb hc
      exact ⟨_, _, _, by simp, h⟩
  obtain ⟨k, l, s', hk, h⟩ := key
  refine ⟨k, l, hk, ?_⟩
  rw [hrun _ _ rfl, runOps_cons_err1 (o := .skipValue) (M.bind_err (skipValue_number hs.emn h))]

/-! ## Strings -/

/-- `bs` is a string literal which denotes the text `t` -/
def Literal (bs : Bytes) (t : Text) : Prop := ∃ x : Str, x.Ok ∧ x.bytes = bs ∧ x.text = t

/-- errors for malformed data: syntax error, or the IO error for invalid UTF-8 -/
def Malformed : RErr → Prop
  | .syntax _ _ => True
  | .io .invalidUtf8 _ => True
  | _ => False

theorem malformed_of {e : RErr} (h : DataErr e) : Malformed e := by
  cases e with
  | io k _ => cases k <;> first | trivial | exact h
  | _ => first | trivial | exact h

theorem string_state (hN : 0 < N) (h : AtValue N st sched bytes pre rs .string P rest) :
    ∃ c l pos r, rest = 0x22 :: r ∧ InvP st bytes True c .stringStart l pos r ∧ c.Slot l ∧ P = currentPosition (stp st c pos (some .stringStart) r) false ∧
      ∀ op tail, token op = true → runReader N st sched (pre ++ op :: tail) = rs ++ runOps (op :: tail) (stp st c pos (some .stringStart) r) := by
  obtain ⟨c, p, l, pos, r, hP, hv, ht, _, rfl, hpos, hrun⟩ := here_state hN h
  cases typeOf_string hv ht
  exact ⟨c, l, pos, r, rfl, hP, hP.lead.slot rfl, hpos, hrun⟩

/-- the ways of reading a string; the sizes given to the string reader are sufficient for a text of the given length (in bytes) -/
inductive ReadsString (n : Nat) : Op → Prop
  | nextString : ReadsString n .nextString
  | nextStr : ReadsString n .nextStr
  | skip : ReadsString n .skipValue
  | reader (lens : List Nat) : n < lens.sum → ReadsString n (.stringReader lens)

/-- what the call returns for the given text -/
def textResult (t : Text) : Op → Out
  | .skipValue => .unit
  | .stringReader lens => .reads (Cursor.chunks lens (enc t))
  | _ => .text t

/-- C07, C08: in front of a string literal all ways of reading (or skipping) it succeed, the result is the text denoted by the literal, the reader is behind it,
and all later results agree -/
theorem C07_C08_string_ok (hN : 0 < N) (h : AtValue N st sched bytes pre rs .string P rest) {bs r : Bytes} {t : Text} (hr : rest = bs ++ r) (hl : Literal bs t) :
    (∀ op, ReadsString (enc t).length op → runReader N st sched (pre ++ [op, .currentPosition false]) = rs ++ [.ok (textResult t op), .ok (.position (P.behind bs))]) ∧
    ∀ tail, ∃ later, ∀ op, ReadsString (enc t).length op → runReader N st sched (pre ++ op :: tail) = rs ++ .ok (textResult t op) :: later := by
  obtain ⟨c, l, pos, r', hr', hP, hs, rfl, hrun⟩ := string_state hN h
  obtain ⟨x, hx, rfl, rfl⟩ := hl
  have he : r' = tailOf (.str x) ++ r := by
    rw [hr] at hr'
    simpa [Str.bytes, tailOf] using hr'.symm
  have hf : Front st c (stp st c pos (some .stringStart) r') l (.str x) pos r := by
    rw [he]; exact Front.of_peeked (v := .str x) hP.lead hx nofun
  have key : ∀ op, ReadsString (enc x.text).length op → token op = true ∧ op ≠ .consumeTrailingWhitespace ∧
      (runOp op).run (stp st c pos (some .stringStart) r') = .ok (textResult x.text op) (behind st c l (.str x) pos r) := by
    intro op ho
    cases ho with
    | nextString => exact ⟨rfl, nofun, M.bind_ok hf.nextString⟩
    | nextStr => exact ⟨rfl, nofun, M.bind_ok hf.nextStr⟩
    | skip => exact ⟨rfl, nofun, M.bind_ok (hf.skipValue fun n h => hP.depth.stack n h)⟩
    | reader lens hl => exact ⟨rfl, nofun, by rw [runOp_reads]; exact M.bind_ok (hf.reads hl)⟩
  constructor
  · intro op ho
    obtain ⟨ht, hne, h⟩ := key op ho
    rw [hrun _ _ ht, runOps_cons_ok h hne, ← position_behind (c' := c.add l (.str x)) (r' := r) (bs := x.bytes) (plain_quote.noBreak.append (str_body_noBreak hx))]
    rfl
  · intro tail
    refine ⟨runOps tail (behind st c l (.str x) pos r), fun op ho => ?_⟩
    obtain ⟨ht, hne, h⟩ := key op ho
    rw [hrun _ _ ht, runOps_cons_ok h hne]

/-- C07, C08: if the input does not continue with a string literal then all ways of reading (or skipping) it fail because of the data -/
theorem C07_C08_string_malformed (hN : 0 < N) (h : AtValue N st sched bytes pre rs .string P rest) (hn : ∀ bs r t, rest = bs ++ r → ¬ Literal bs t) :
    ∀ op, ReadsString rest.length op → ∃ e, Malformed e ∧ runReader N st sched (pre ++ [op]) = rs ++ [.error e] := by
  obtain ⟨c, l, pos, r, rfl, hP, hs, rfl, hrun⟩ := string_state hN h
  have hno : NoString r := fun x r' hx he => hn x.bytes r' x.text (by rw [he]; simp [Str.bytes]) ⟨x, hx, rfl, rfl⟩
  have key : ∀ op, ReadsString (0x22 :: r).length op → token op = true ∧ ∃ e s', DataErr e ∧ (runOp op).run (stp st c pos (some .stringStart) r) = .err e s' := by
    intro op ho
    cases ho with
    | nextString => obtain ⟨e, s', hd, h⟩ := nextString_bad (st := st) (pos := pos) hs.emn hno; exact ⟨rfl, e, s', hd, M.bind_err h⟩
    | nextStr => obtain ⟨e, s', hd, h⟩ := nextStr_bad (st := st) (pos := pos) hs.emn hno; exact ⟨rfl, e, s', hd, M.bind_err h⟩
    | skip => obtain ⟨e, s', hd, h⟩ := skipString_bad (st := st) (pos := pos) hs.emn hno; exact ⟨rfl, e, s', hd, M.bind_err h⟩
    | reader lens hl =>
      obtain ⟨e, s', hd, h⟩ := reads_bad (st := st) (pos := pos) hs hno (Nat.lt_of_le_of_lt (by simp) hl)
      exact ⟨rfl, e, s', hd, by rw [runOp_reads]; exact M.bind_err h⟩
  intro op ho
  obtain ⟨ht, e, s', hd, h⟩ := key op ho
  exact ⟨e, malformed_of hd, by rw [hrun _ _ ht, runOps_cons_err1 h]⟩

/-- C09: in front of a string literal, reading with any sequence of buffer sizes yields the consecutive pieces of these sizes of the UTF-8 text, as long as there is
something left (`Cursor.chunks`, see `C09_chunks_flatten` and `C09_chunks_get` below) -/
theorem C09_string_reader (hN : 0 < N) (h : AtValue N st sched bytes pre rs .string P rest) {bs r : Bytes} {t : Text} (hr : rest = bs ++ r) (hl : Literal bs t) (lens : List Nat) :
    runReader N st sched (pre ++ [.stringReader lens]) = rs ++ [.ok (.reads (Cursor.chunks lens (enc t)))] := by
  obtain ⟨c, l, pos, r', hr', hP, hs, rfl, hrun⟩ := string_state hN h
  obtain ⟨x, hx, rfl, rfl⟩ := hl
  have he : r' = x.body ++ 0x22 :: r := by
    rw [hr] at hr'
    simpa [Str.bytes] using hr'.symm
  subst he
  have hV : V x.text r (x.body ++ 0x22 :: r) := ⟨x.items, hx, rfl⟩
  have h2 := strReadsOk_wp (st := st) hs (lens := lens) (pos := pos.over [0x22]) (r := x.body ++ 0x22 :: r) SR.new
  unfold Wp at h2
  have key : ∃ s', (readsOp lens).run (stp st c pos (some .stringStart) (x.body ++ 0x22 :: r)) = .ok (Cursor.chunks lens (enc x.text)) s' := by
    unfold readsOp
    rw [M.bind_ok (nextStringReader_ok hs)]
    cases hrun : (strReadsOk lens StrReader.new).run (active st c (pos.over [0x22]) (x.body ++ 0x22 :: r)) with
    | err e s1 =>
      rw [hrun] at h2
      exact absurd hV (h2.2 _ _)
    | ok res s1 =>
      rw [hrun] at h2
      obtain ⟨is, cs, his, hrs, hcase⟩ := h2
      rw [chunks_pieces]
      refine ⟨s1, (M.bind_ok hrun).trans ?_⟩
      show Res.ok res.2 s1 = _
      rw [hrs, List.nil_append]
      rcases hcase with ⟨_, _, hlen, r2, hr2, hs1⟩ | ⟨_, hlen, r2, hr2, hs1⟩
      · rw [hr2] at hV
        obtain ⟨cs', hcs, hV'⟩ := hV.items his
        obtain ⟨rfl, hrr⟩ := hV'.quote
        rw [hcs, List.append_nil]
      · rw [hr2] at hV
        obtain ⟨cs', hcs, hV'⟩ := hV.items his
        rw [hcs, Verif.enc_append, pieces_append _ (by simpa using hlen)]
  obtain ⟨s', key⟩ := key
  rw [hrun _ _ rfl, runOps_cons_ok (o := .stringReader lens) (x := .reads (Cursor.chunks lens (enc x.text))) (s' := s') (by rw [runOp_reads]; exact M.bind_ok key) nofun]
  rfl

/-- C09: the pieces are consecutive -/
theorem C09_chunks_flatten (lens : List Nat) (bs : Bytes) : (Cursor.chunks lens bs).flatten = bs.take lens.sum := by
  induction lens generalizing bs with
  | nil => simp [Cursor.chunks]
  | cons n lens ih => rw [Cursor.chunks, List.flatten_cons, ih, List.sum_cons, List.take_add]

/-- C09: each read fills the buffer completely, unless the string ends -/
theorem C09_chunks_get (lens : List Nat) (bs : Bytes) (i : Nat) (h : i < lens.length) :
    (Cursor.chunks lens bs)[i]? = some ((bs.drop (lens.take i).sum).take lens[i]) := by
  induction lens generalizing bs i with
  | nil => cases h
  | cons n lens ih =>
    cases i with
    | zero => simp [Cursor.chunks]
    | succ i =>
      simp only [List.length_cons] at h
      simp only [Cursor.chunks, List.getElem?_cons_succ, List.getElem_cons_succ, List.take_succ_cons, List.sum_cons]
      rw [ih (bs.drop n) i (by omega), List.drop_drop]

theorem strConsume_error {σ : Type} (len : Nat) (bs : Bytes) {sr sr' : StrReader} {out out' : Bytes} {s s' : RState σ}
    (h : (strConsume (σ := σ) len bs sr out).run s = .ok (sr', out') s') : sr'.error = sr.error := by
  induction bs generalizing sr out with
  | nil => cases h; rfl
  | cons b bs ih =>
    rw [strConsume] at h
    split at h
    · exact ih h
    · split at h
      · exact (ih h).trans rfl
      · cases h

theorem strReadLoop_error {σ : Type} [ByteSource σ] (len fuel : Nat) {sr sr' : StrReader} {out out' : Bytes} {s s' : RState σ}
    (h : (strReadLoop (σ := σ) len fuel sr out).run s = .ok (sr', out') s') : sr'.error = sr.error := by
  induction fuel generalizing sr out s with
  | zero =>
    rw [strReadLoop] at h
    split at h
    · cases h
    · cases h; rfl
  | succ fuel ih =>
    rw [strReadLoop] at h
    split at h
    · split at h
      · cases h
      · rw [M.bind_eq_ok] at h
        obtain ⟨⟨e, bytes⟩, s1, _, h⟩ := h
        dsimp only at h
        rw [M.bind_eq_ok] at h
        obtain ⟨⟨sr1, out1⟩, s2, h1, h⟩ := h
        have e1 := strConsume_error _ _ h1
        dsimp only at h
        split at h
        · rw [M.bind_eq_ok] at h
          obtain ⟨_, s3, _, h⟩ := h
          rw [M.bind_eq_ok] at h
          obtain ⟨_, s4, _, h⟩ := h
          cases h
          exact e1
        · exact (ih h).trans e1
    · cases h; rfl

theorem strReadImpl_error {σ : Type} [ByteSource σ] (len : Nat) {sr sr' : StrReader} {out' : Bytes} {s s' : RState σ}
    (h : (strReadImpl (σ := σ) len sr).run s = .ok (sr', out') s') : sr'.error = sr.error := by
  unfold strReadImpl at h
  split at h
  · cases h; rfl
  · rw [M.bind_eq_ok] at h
    obtain ⟨⟨sr1, out1⟩, s1, h1, h⟩ := h
    refine (strReadLoop_error _ _ h).trans ?_
    unfold strDrain at h1
    split at h1
    · dsimp only at h1
      split at h1
      · cases h1
      · split at h1
        · cases h1; rfl
        · cases h1; rfl
    · cases h1; rfl

/-- C10: once a read of the string reader failed, every later read fails as well, with the previous error -/
theorem C10_sticky {σ : Type} [ByteSource σ] (lens : List Nat) {sr sr' : StrReader} {s s' : RState σ} {rs : List StrReadResult} (h0 : sr.error = none)
    (h : (strReads lens sr).run s = .ok (sr', rs) s') :
    rs.length = lens.length ∧ ((∃ data : List Bytes, rs = data.map .ok) ∨ ∃ (data : List Bytes) (e : RErr) (n : Nat), rs = data.map .ok ++ .err e :: List.replicate n (.previous e)) := by
  have hprev : ∀ (lens : List Nat) {sr sr' : StrReader} {s s' : RState σ} {rs : List StrReadResult} {e : RErr}, sr.error = some e → (strReads lens sr).run s = .ok (sr', rs) s' →
      rs = List.replicate lens.length (.previous e) := by
    intro lens
    induction lens with
    | nil => intro sr sr' s s' rs e _ h; cases h; rfl
    | cons n lens ih =>
      intro sr sr' s s' rs e he h
      rw [strReads, M.bind_eq_ok] at h
      obtain ⟨⟨sr1, r⟩, s1, h1, h2⟩ := h
      unfold strRead at h1
      rw [he] at h1
      cases h1
      dsimp only at h2
      rw [M.bind_eq_ok] at h2
      obtain ⟨⟨sr2, rs2⟩, s2, h3, h4⟩ := h2
      cases h4
      rw [ih he h3]
      rfl
  induction lens generalizing sr s rs with
  | nil => cases h; exact ⟨rfl, .inl ⟨[], rfl⟩⟩
  | cons n lens ih =>
    rw [strReads, M.bind_eq_ok] at h
    obtain ⟨⟨sr1, r⟩, s1, h1, h2⟩ := h
    dsimp only at h2
    rw [M.bind_eq_ok] at h2
    obtain ⟨⟨sr2, rs2⟩, s2, h3, h4⟩ := h2
    cases h4
    unfold strRead at h1
    rw [h0] at h1
    dsimp only at h1
    split at h1
    · rename_i hi
      cases h1
      obtain ⟨hl, hc⟩ := ih ((strReadImpl_error _ hi).trans h0) h3
      refine ⟨by simp [hl], ?_⟩
      rcases hc with ⟨data, rfl⟩ | ⟨data, e, k, rfl⟩
      · exact .inl ⟨_ :: data, rfl⟩
      · exact .inr ⟨_ :: data, e, k, rfl⟩
    · cases h1
    · cases h1
    · cases h1
      have := hprev lens rfl h3
      subst this
      exact ⟨by simp, .inr ⟨[], _, _, rfl⟩⟩

theorem strReads_previous {σ : Type} [ByteSource σ] (lens : List Nat) {sr : StrReader} (s : RState σ) {e : RErr} (he : sr.error = some e) :
    (strReads lens sr).run s = .ok (sr, List.replicate lens.length (.previous e)) s := by
  induction lens with
  | nil => rfl
  | cons n lens ih =>
    rw [strReads]
    have h1 : (strRead (σ := σ) n sr).run s = .ok (sr, .previous e) s := by
      unfold strRead
      rw [he]
      rfl
    rw [M.bind_ok h1]
    dsimp only
    rw [M.bind_ok ih]
    rfl

/-- C09/C10: `Op.stringReader` (`strReadsOk`) ends at the first error; the reads which go on behind it fail with the previous error, and change nothing any more -/
theorem C10_reads {σ : Type} [ByteSource σ] (lens : List Nat) {sr : StrReader} {s : RState σ} (h0 : sr.error = none) :
    match (strReadsOk lens sr).run s with
    | .ok (sr', data) s' => (strReads lens sr).run s = .ok (sr', data.map .ok) s'
    | .err (.panic p) s' => (strReads lens sr).run s = .err (.panic p) s'
    | .err .outOfFuel s' => (strReads lens sr).run s = .err .outOfFuel s'
    | .err e s' => ∃ (data : List Bytes) (n : Nat) (sr' : StrReader), data.length + 1 + n = lens.length ∧ (strReads lens sr).run s = .ok (sr', data.map .ok ++ .err e :: List.replicate n (.previous e)) s' := by
  induction lens generalizing sr s with
  | nil => rfl
  | cons n lens ih =>
    rw [strReads, strReadsOk]
    cases hi : (strReadImpl n sr).run s with
    | err e s1 =>
      rw [M.bind_err hi]
      have h1 : (strRead n sr).run s = (match (Res.err e s1 : Res RErr (RState σ) (StrReader × Bytes)) with
          | .ok (sr, bytes) s' => .ok (sr, .ok bytes) s'
          | .err (.panic p) s' => .err (.panic p) s'
          | .err .outOfFuel s' => .err .outOfFuel s'
          | .err e s' => .ok ({ sr with error := some e }, .err e) s') := by
        unfold strRead
        rw [h0]
        dsimp only
        rw [hi]
        cases e <;> rfl
      have key (h : (strRead n sr).run s = .ok ({ sr with error := some e }, .err e) s1) : ∃ (data : List Bytes) (k : Nat) (sr' : StrReader), data.length + 1 + k = (n :: lens).length ∧
          (strReads (n :: lens) sr).run s = .ok (sr', data.map .ok ++ .err e :: List.replicate k (.previous e)) s1 := by
        refine ⟨[], lens.length, { sr with error := some e }, by simp; omega, ?_⟩
        rw [strReads, M.bind_ok h]
        dsimp only
        rw [M.bind_ok (strReads_previous lens s1 rfl)]
        rfl
      cases e with
      | panic p => exact M.bind_err h1
      | outOfFuel => exact M.bind_err h1
      | _ =>
        exact key h1
    | ok x s1 =>
      obtain ⟨sr1, bytes⟩ := x
      have h1 : (strRead n sr).run s = .ok (sr1, .ok bytes) s1 := by
        unfold strRead
        rw [h0]
        dsimp only
        rw [hi]
      rw [M.bind_ok hi, M.bind_ok h1]
      dsimp only
      have h2 := ih (s := s1) ((strReadImpl_error _ hi).trans h0)
      cases hr : (strReadsOk lens sr1).run s1 with
      | ok y s2 =>
        rw [hr] at h2
        rw [M.bind_ok hr]
        dsimp only at h2
        rw [M.bind_ok h2]
        rfl
      | err e s2 =>
        rw [hr] at h2
        rw [M.bind_err hr]
        cases e with
        | panic p => exact M.bind_err h2
        | outOfFuel => exact M.bind_err h2
        | _ =>
          obtain ⟨data, k, sr', hl, h2⟩ := h2
          refine ⟨bytes :: data, k, sr', by simp; omega, ?_⟩
          rw [M.bind_ok h2]
          rfl

/-! ## Names -/

theorem after_length : ∀ {pre : List Op} {rs : List (Except RErr Out)} {m m' : Mode}, m.after pre rs = some m' → rs.length = pre.length
  | [], [], _, _, _ => rfl
  | [], _ :: _, _, _, h => by cases h
  | _ :: _, [], _, _, h => by cases h
  | op :: ops, .ok o :: rs, m, m', h => by
    rw [Mode.after] at h
    split at h
    · cases h
    · rw [List.length_cons, List.length_cons, after_length h]
  | op :: ops, .error e :: rs, m, m', h => by
    rw [Mode.after] at h
    split at h
    · cases h
    · rw [List.length_cons, List.length_cons, after_length h]

theorem name_state (hN : 0 < N) (h : AtName N st sched bytes pre rs P rest) :
    ∃ up lu d l pos r, rest = 0x22 :: r ∧ InvP st bytes True (.obj up lu d) .nameStart l pos r ∧ P = currentPosition (stp st (.obj up lu d) pos (some .nameStart) r) false ∧
      ∀ op tail, token op = true → runReader N st sched (pre ++ op :: tail) = rs ++ runOps (op :: tail) (stp st (.obj up lu d) pos (some .nameStart) r) := by
  obtain ⟨m, hm, hc⟩ := h.mode
  obtain ⟨m', s, hI, hm', hs, hp⟩ := behind_pre hN h.delivers (after_length hm) h.numbers (by simp) h.peeked
  cases hm' _ hm
  have hw : Wp (runOp .hasNext) s (fun o s' => ∃ up lu d p l pos r, o = .bool (!isEnd p) ∧ s' = stp st (.obj up lu d) pos (some p) r ∧ InvP st bytes True (.obj up lu d) p l pos r) (fun _ _ => True) := by
    cases hI with
    | @«at» c _ hA =>
      obtain ⟨u, l, d, rfl⟩ := obj_of_emn (canName_iff.symm.trans hc)
      refine Wp.bind' ((hasNext_wp (K := fun _ => True) hA rfl rfl).mono (fun _ _ h => h) fun _ _ _ => trivial) ?_
      rintro _ _ ⟨p, l', pos, r, rfl, rfl, hP, _⟩
      exact Wp.pure ⟨u, l, d, p, l', pos, r, rfl, rfl, hP⟩
    | @active c l pos r x y h1 h2 h3 h4 => cases hc
  unfold Wp at hw
  cases hm : (runOp .hasNext).run s with
  | err e s' => rw [runOps, hm] at hp; simp at hp
  | ok o s' =>
    rw [hm] at hw
    obtain ⟨up, lu, d, p, l, pos, r, rfl, rfl, hP⟩ := hw
    rw [runOps_cons_ok hm nofun] at hp
    simp only [List.cons.injEq, Except.ok.injEq, Out.bool.injEq] at hp
    obtain ⟨hb, hp⟩ := hp
    have hpn : p = .nameStart := by
      rcases hP.lead.allows with rfl | rfl
      · rfl
      · cases hb
    subst hpn
    have hpos : P = currentPosition (stp st (.obj up lu d) pos (some .nameStart) r) false := by
      have : runOps [.currentPosition false] (stp st (.obj up lu d) pos (some .nameStart) r) = [.ok (.position (currentPosition (stp st (.obj up lu d) pos (some .nameStart) r) false))] := rfl
      rw [this] at hp
      simpa using hp.symm
    obtain ⟨_, hb, hpo⟩ := hP.good trivial
    refine ⟨up, lu, d, l, pos, r, ?_, hP, hpos, ?_⟩
    · rw [← h.rest, hpos]
      show bytes.drop pos.byte = _
      rw [hpo, posOf_eq, hb, ← List.append_assoc, List.drop_left]
      rfl
    · intro op tail ht
      rw [hs]
      obtain ⟨o, hpk⟩ := looked rfl hm
      rw [after_pk hpk (Inv.invT (.at (.p hP))) ht]

/-- what the call returns for the given name -/
def nameResult (t : Text) : Op → Out
  | .skipName => .unit
  | _ => .text t

/-- C07, C08: in front of a string literal all ways of reading (or skipping) a name succeed, the result is the text denoted by the literal, the reader is behind it,
and all later results agree -/
theorem C07_C08_name_ok (hN : 0 < N) (h : AtName N st sched bytes pre rs P rest) {bs r : Bytes} {t : Text} (hr : rest = bs ++ r) (hl : Literal bs t) :
    (∀ op ∈ [Op.nextName, .nextNameOwned, .skipName],
      runReader N st sched (pre ++ [op, .currentPosition false]) = rs ++ [.ok (nameResult t op), .ok (.position (P.behind bs))]) ∧
    ∀ tail, ∃ later, ∀ op ∈ [Op.nextName, .nextNameOwned, .skipName], runReader N st sched (pre ++ op :: tail) = rs ++ .ok (nameResult t op) :: later := by
  obtain ⟨up, lu, d, l, pos, r', hr', hP, rfl, hrun⟩ := name_state hN h
  obtain ⟨x, hx, rfl, rfl⟩ := hl
  have he : r' = x.body ++ 0x22 :: r := by
    rw [hr] at hr'
    simpa [Str.bytes] using hr'.symm
  subst he
  have key : ∀ op ∈ [Op.nextName, .nextNameOwned, .skipName], token op = true ∧ op ≠ .consumeTrailingWhitespace ∧
      (runOp op).run (stp st (.obj up lu d) pos (some .nameStart) (x.body ++ 0x22 :: r)) = .ok (nameResult x.text op) (stp st (.val up lu d (.plain []) x) (pos.over x.bytes) none r) := by
    intro op ho
    simp only [List.mem_cons, List.not_mem_nil, or_false] at ho
    rcases ho with rfl | rfl | rfl
    · exact ⟨rfl, nofun, M.bind_ok (nextName_ok hx)⟩
    · exact ⟨rfl, nofun, M.bind_ok (nextNameOwned_ok hx)⟩
    · exact ⟨rfl, nofun, M.bind_ok (skipName_ok hx)⟩
  constructor
  · intro op ho
    obtain ⟨ht, hne, h⟩ := key op ho
    rw [hrun _ _ ht, runOps_cons_ok h hne, ← position_behind (c' := .val up lu d (.plain []) x) (r' := r) (bs := x.bytes) (plain_quote.noBreak.append (str_body_noBreak hx))]
    rfl
  · intro tail
    refine ⟨runOps tail (stp st (.val up lu d (.plain []) x) (pos.over x.bytes) none r), fun op ho => ?_⟩
    obtain ⟨ht, hne, h⟩ := key op ho
    rw [hrun _ _ ht, runOps_cons_ok h hne]

/-- C07, C08: if the input does not continue with a string literal then all ways of reading (or skipping) the name fail because of the data -/
theorem C07_C08_name_malformed (hN : 0 < N) (h : AtName N st sched bytes pre rs P rest) (hn : ∀ bs r t, rest = bs ++ r → ¬ Literal bs t) :
    ∀ op ∈ [Op.nextName, .nextNameOwned, .skipName], ∃ e, Malformed e ∧ runReader N st sched (pre ++ [op]) = rs ++ [.error e] := by
  obtain ⟨up, lu, d, l, pos, r, rfl, hP, rfl, hrun⟩ := name_state hN h
  have hno : NoString r := fun x r' hx he => hn x.bytes r' x.text (by rw [he]; simp [Str.bytes]) ⟨x, hx, rfl, rfl⟩
  have key : ∀ op ∈ [Op.nextName, .nextNameOwned, .skipName], token op = true ∧ ∃ e s', DataErr e ∧ (runOp op).run (stp st (.obj up lu d) pos (some .nameStart) r) = .err e s' := by
    intro op ho
    simp only [List.mem_cons, List.not_mem_nil, or_false] at ho
    rcases ho with rfl | rfl | rfl
    · obtain ⟨e, s', hd, h⟩ := nextName_bad (st := st) (pos := pos) hno; exact ⟨rfl, e, s', hd, M.bind_err h⟩
    · obtain ⟨e, s', hd, h⟩ := nextNameOwned_bad (st := st) (pos := pos) hno; exact ⟨rfl, e, s', hd, M.bind_err h⟩
    · obtain ⟨e, s', hd, h⟩ := skipName_bad (st := st) (pos := pos) hno; exact ⟨rfl, e, s', hd, M.bind_err h⟩
  intro op ho
  obtain ⟨ht, e, s', hd, h⟩ := key op ho
  exact ⟨e, malformed_of hd, by rw [hrun _ _ ht, runOps_cons_err1 h]⟩

/-! ## UTF-8 -/

/-- bytes which are not special in a string literal -/
def Unescaped (x : Bytes) : Prop := ∀ b ∈ x, 0x20 ≤ b ∧ b ≠ 0x22 ∧ b ≠ 0x5C

theorem encodeChar_special {c : Char} {b : UInt8} (hb : b ∈ String.utf8EncodeChar c) (h : b.toNat < 0x80) : c.toNat = b.toNat := by
  have hs := encShape c
  generalize String.utf8EncodeChar c = bs at hs hb
  cases hs <;> simp only [List.mem_cons, List.not_mem_nil, or_false] at hb
  · subst hb; assumption
  · rcases hb with rfl | rfl <;> omega
  · rcases hb with rfl | rfl | rfl <;> omega
  · rcases hb with rfl | rfl | rfl | rfl <;> omega

theorem items_unescaped {r r' : Bytes} {is : List StrItem} {cs : Text} (hy : ItemsAre is cs) :
    ∀ {x : Bytes}, Unescaped x → x ++ 0x22 :: r = is.flatMap StrItem.bytes ++ 0x22 :: r' → enc cs = x := by
  induction hy with
  | nil =>
    intro x hx h
    cases x with
    | nil => rfl
    | cons b x =>
      simp at h
      exact absurd h.1 (hx b (by simp)).2.1
  | @cons i c is cs hi hc ih =>
    intro x hx h
    have hx' : ∀ {b t}, x ++ 0x22 :: r = b :: t → b ≠ 0x5C := by
      intro b t hb
      cases x with
      | nil => cases hb; decide
      | cons b' x => cases hb; exact (hx _ (by simp)).2.2
    rw [List.flatMap_cons, List.append_assoc] at h
    cases hi with
    | short b _ _ => exact absurd rfl (hx' h)
    | unicode => exact absurd rfl (hx' h)
    | pair => exact absurd rfl (hx' h)
    | char _ h1 h2 h3 =>
      change x ++ 0x22 :: r = String.utf8EncodeChar c ++ _ at h
      rw [Verif.enc_cons]
      rcases List.append_eq_append_iff.1 h with ⟨a, ha, hb⟩ | ⟨a, ha, hb⟩
      · cases a with
        | nil =>
          rw [List.append_nil] at ha
          rw [List.nil_append] at hb
          rw [ih (x := []) nofun (by rw [← hb]; rfl), List.append_nil, ha]
        | cons b a =>
          cases hb
          refine absurd (char_ext (encodeChar_special (c := c) (b := 0x22) (by rw [ha]; simp) (by decide))) h2
      · subst ha
        rw [ih (x := a) (fun b hb => hx b (by simp [hb])) hb.symm]

theorem literal_unescaped {x r bs r' : Bytes} {t : Text} (hx : Unescaped x) (h : 0x22 :: (x ++ 0x22 :: r) = bs ++ r') (hl : Literal bs t) : enc t = x := by
  obtain ⟨y, hy, rfl, rfl⟩ := hl
  exact items_unescaped (r := r) (r' := r') hy hx (by simpa [Str.bytes, Str.body] using h)

theorem unescaped_literal {t : Text} (hx : Unescaped (enc t)) : Literal (0x22 :: (enc t ++ [0x22])) t := by
  refine ⟨⟨t.map .char, t⟩, ?_, ?_, rfl⟩
  · show ItemsAre (t.map .char) t
    induction t with
    | nil => exact .nil
    | cons c t ih =>
      rw [Verif.enc_cons] at hx
      refine .cons ?_ (ih fun b hb => hx b (by simp [hb]))
      have key : ∀ n, n < 0x80 → c.toNat = n → 0x20 ≤ n ∧ n ≠ 0x22 ∧ n ≠ 0x5C := by
        intro n hn hc
        obtain ⟨b, hb, he⟩ := encodeChar_ascii (c := c) (by omega)
        have := hx b (by rw [he]; simp)
        refine ⟨?_, ?_, ?_⟩
        · have := UInt8.le_iff_toNat_le.1 this.1
          rw [hb, hc] at this
          exact this
        · rintro rfl; exact this.2.1 (UInt8.toNat_inj.1 (hb.trans hc))
        · rintro rfl; exact this.2.2 (UInt8.toNat_inj.1 (hb.trans hc))
      refine .char c ?_ ?_ ?_
      · rcases Nat.lt_or_ge c.toNat 0x20 with h | h
        · exact absurd (key _ (by omega) rfl).1 (by omega)
        · exact h
      · rintro rfl; exact absurd rfl (key _ (by decide) rfl).2.1
      · rintro rfl; exact absurd rfl (key _ (by decide) rfl).2.2
  · show 0x22 :: ((t.map StrItem.char).flatMap StrItem.bytes ++ [0x22]) = _
    rw [List.flatMap_map]
    rfl

/-- C06: multi-byte sequences in a string are accepted if and only if they are valid UTF-8: the bytes between the quotes, without special characters, are accepted
if and only if they are the UTF-8 encoding of some text, which then is the result -/
theorem C06_string (hN : 0 < N) (h : AtValue N st sched bytes pre rs .string P rest) {x r : Bytes} (hx : Unescaped x) (hr : rest = 0x22 :: (x ++ 0x22 :: r)) :
    (∀ t, enc t = x → ∀ op, ReadsString x.length op → ∀ tail, ∃ later, runReader N st sched (pre ++ op :: tail) = rs ++ .ok (textResult t op) :: later) ∧
    ((∀ t, enc t ≠ x) → ∀ op, ReadsString rest.length op → ∃ e, Malformed e ∧ runReader N st sched (pre ++ [op]) = rs ++ [.error e]) := by
  constructor
  · rintro t rfl op ho tail
    obtain ⟨later, hl⟩ := (C07_C08_string_ok hN h (bs := 0x22 :: (enc t ++ [0x22])) (r := r) (by rw [hr]; simp) (unescaped_literal hx)).2 tail
    exact ⟨later, hl op ho⟩
  · intro hn
    exact C07_C08_string_malformed hN h fun bs r' t he hl => hn t (literal_unescaped hx (hr ▸ he) hl)

/-- C06: same for names -/
theorem C06_name (hN : 0 < N) (h : AtName N st sched bytes pre rs P rest) {x r : Bytes} (hx : Unescaped x) (hr : rest = 0x22 :: (x ++ 0x22 :: r)) :
    (∀ t, enc t = x → ∀ op ∈ [Op.nextName, .nextNameOwned, .skipName], ∀ tail, ∃ later, runReader N st sched (pre ++ op :: tail) = rs ++ .ok (nameResult t op) :: later) ∧
    ((∀ t, enc t ≠ x) → ∀ op ∈ [Op.nextName, .nextNameOwned, .skipName], ∃ e, Malformed e ∧ runReader N st sched (pre ++ [op]) = rs ++ [.error e]) := by
  constructor
  · rintro t rfl op ho tail
    obtain ⟨later, hl⟩ := (C07_C08_name_ok hN h (bs := 0x22 :: (enc t ++ [0x22])) (r := r) (by rw [hr]; simp) (unescaped_literal hx)).2 tail
    exact ⟨later, hl op ho⟩
  · intro hn
    exact C07_C08_name_malformed hN h fun bs r' t he hl => hn t (literal_unescaped hx (hr ▸ he) hl)

/-! ## Examples: the hypotheses of the theorems hold at concrete places of concrete inputs -/

/-- each byte is delivered on its own -/
def single (bs : Bytes) : List ReadEvent := bs.map fun b => .data [b]

theorem single_delivers (bs : Bytes) : Delivers (single bs) bs none := by
  unfold single
  induction bs with
  | nil => exact .done
  | cons b bs ih => exact .data b [] ih

theorem prefixes {P : Bytes → Bytes → Prop} {rest : Bytes} (h : ∀ i ∈ List.range (rest.length + 1), P (rest.take i) (rest.drop i)) : ∀ bs r, rest = bs ++ r → P bs r := by
  rintro bs r rfl
  have := h bs.length (by simp; omega)
  simpa using this

instance {r : Bytes} : Decidable (Delimited r) :=
  match r with
  | [] => isTrue (by simp [Delimited])
  | b :: r => decidable_of_iff (b ∈ [0x2C, 0x5D, 0x7D, 0x3A, 0x20, 0x09, 0x0A, 0x0D, 0x2F]) (by simp [Delimited])

instance {bs : Bytes} : Decidable (IsNumber bs) := decidable_of_iff _ (JsonNumber.isValidJsonNumber_iff bs)

theorem exNumber : AtValue 3 Settings.default (single [91, 32, 45, 49, 46, 53, 101, 50, 32, 44, 32, 49, 120, 44, 32, 49, 101, 49, 48, 48, 48, 93]) [91, 32, 45, 49, 46, 53, 101, 50, 32, 44, 32, 49, 120, 44, 32, 49, 101, 49, 48, 48, 48, 93]
    [.beginArray] [.ok .unit] .number ⟨none, 0, 2, 2⟩ ([45, 49, 46, 53, 101, 50] ++ [32, 44, 32, 49, 120, 44, 32, 49, 101, 49, 48, 48, 48, 93]) :=
  ⟨single_delivers _, rfl, by simp, by decide +kernel, rfl⟩

/-- `[ -1.5e2 , 1x, 1e1000]`, `C04_number_ok`, `C05_number_skipped` -/
example : IsNumber [45, 49, 46, 53, 101, 50] ∧ Delimited [32, 44, 32, 49, 120, 44, 32, 49, 101, 49, 48, 48, 48, 93] ∧ ¬ UnsupportedNumber [45, 49, 46, 53, 101, 50] := by
  refine ⟨by decide +kernel, by decide +kernel, ?_⟩
  intro h
  obtain ⟨t, _, h1⟩ := C05_number_rejected (by decide) exNumber rfl (by decide +kernel) (by simp [NumberEnds]; decide) rfl h
  obtain ⟨l, h1⟩ := h1 .nextNumberAsStr (by simp)
  have h2 : runReader 3 Settings.default (single [91, 32, 45, 49, 46, 53, 101, 50, 32, 44, 32, 49, 120, 44, 32, 49, 101, 49, 48, 48, 48, 93]) ([.beginArray] ++ [.nextNumberAsStr]) =
      [.ok .unit, .ok (.text ['-', '1', '.', '5', 'e', '2'])] := by decide +kernel
  rw [h2] at h1
  simp at h1

/-- `C04_number_syntax`, `C04_number_skip_syntax`: the number `1x` in the same document -/
example : AtValue 3 Settings.default (single [91, 32, 45, 49, 46, 53, 101, 50, 32, 44, 32, 49, 120, 44, 32, 49, 101, 49, 48, 48, 48, 93]) [91, 32, 45, 49, 46, 53, 101, 50, 32, 44, 32, 49, 120, 44, 32, 49, 101, 49, 48, 48, 48, 93] 
    [.beginArray, .skipValue] [.ok .unit, .ok .unit] .number ⟨none, 0, 11, 11⟩ [49, 120, 44, 32, 49, 101, 49, 48, 48, 48, 93] ∧
    ∀ bs r, [49, 120, 44, 32, 49, 101, 49, 48, 48, 48, 93] = bs ++ r → IsNumber bs → ¬ Delimited r :=
  ⟨⟨single_delivers _, rfl, by simp, by decide +kernel, rfl⟩, prefixes (by decide +kernel)⟩

/-- `[ 1e1000]`, `C05_number_rejected` -/
example : AtValue 3 Settings.default (single [91, 32, 49, 101, 49, 48, 48, 48, 93]) [91, 32, 49, 101, 49, 48, 48, 48, 93] [.beginArray] [.ok .unit] .number ⟨none, 0, 2, 2⟩ ([49, 101, 49, 48, 48, 48] ++ [93]) ∧
    IsNumber [49, 101, 49, 48, 48, 48] ∧ NumberEnds [93] ∧ UnsupportedNumber [49, 101, 49, 48, 48, 48] := by
  refine ⟨⟨single_delivers _, rfl, by simp, by decide +kernel, rfl⟩, by decide +kernel, by simp [NumberEnds]; decide, ?_⟩
  exact .inr ⟨⟨false, [49], none, some (101, none, [49, 48, 48, 48])⟩, ⟨.inr ⟨49, [], rfl, rfl, by decide, by simp⟩, nofun, by
    rintro e sg ds ⟨⟩; exact ⟨.inl rfl, nofun, by decide, by decide⟩⟩, rfl, by decide⟩

/-- `"a\u00e9\n"` -/
theorem exLiteral : Literal [34, 97, 92, 117, 48, 48, 101, 57, 92, 110, 34] ['a', 'é', '\n'] :=
  ⟨⟨[.char 'a', .unicode ⟨48, 48, 101, 57⟩, .short 110], ['a', 'é', '\n']⟩,
    .cons (.char _ (by decide) (by decide) (by decide)) (.cons (.unicode _ _ ⟨0, 0, 14, 9, by decide, by decide, by decide, by decide, by decide⟩) (.cons (.short _ _ rfl) .nil)), by decide, rfl⟩

/-- `[1, "a\u00e9\n" ]`, `C07_C08_string_ok`, `C09_string_reader` -/
example : AtValue 3 Settings.default (single [91, 49, 44, 32, 34, 97, 92, 117, 48, 48, 101, 57, 92, 110, 34, 32, 93]) [91, 49, 44, 32, 34, 97, 92, 117, 48, 48, 101, 57, 92, 110, 34, 32, 93] [.beginArray, .nextNumberAsStr] [.ok .unit, .ok (.text ['1'])] .string
    ⟨none, 0, 4, 4⟩ ([34, 97, 92, 117, 48, 48, 101, 57, 92, 110, 34] ++ [32, 93]) :=
  ⟨single_delivers _, rfl, by simp, by decide +kernel, rfl⟩

example : Cursor.chunks [2, 0, 1, 5, 3] (enc ['a', 'é', '\n']) = [[97, 0xC3], [], [0xA9], [10], []] := by decide +kernel

theorem exBad : AtValue 3 Settings.default (single [91, 49, 44, 32, 34, 92, 120, 34, 32, 93]) [91, 49, 44, 32, 34, 92, 120, 34, 32, 93] [.beginArray, .nextNumberAsStr] [.ok .unit, .ok (.text ['1'])] .string
    ⟨none, 0, 4, 4⟩ [34, 92, 120, 34, 32, 93] := ⟨single_delivers _, rfl, by simp, by decide +kernel, rfl⟩

/-- `[1, "\x" ]`, `C07_C08_string_malformed` -/
example : ∀ bs r t, [34, 92, 120, 34, 32, 93] = bs ++ r → ¬ Literal bs t := by
  intro bs r t hr hl
  have h1 := (C07_C08_string_ok (by decide) exBad hr hl).1 .nextStr .nextStr
  have h2 : runReader 3 Settings.default (single [91, 49, 44, 32, 34, 92, 120, 34, 32, 93]) ([.beginArray, .nextNumberAsStr] ++ [.nextStr, .currentPosition false]) =
      [.ok .unit, .ok (.text ['1']), .error (.syntax .unknownEscapeSequence ⟨some [.arrayItem 1], 0, 5, 5⟩)] := by decide +kernel
  rw [h2] at h1
  simp at h1

/-- `"a\x"` read with buffers of size 1, 1, 0 and 5, `C10_sticky`, `C10_reads` -/
example : StrReader.new.error = none ∧
    (match (nextStringReader >>= strReads [1, 1, 0, 5]).run (new (σ := AbsSrc) ⟨[34, 97, 92, 120, 34], none, []⟩ Settings.default) with | .ok a _ => some a.2 | _ => none) =
      let e := RErr.syntax .unknownEscapeSequence ⟨some [], 0, 2, 2⟩
      some [.ok [97], .err e, .previous e, .previous e] := by decide +kernel

/-- `{ "a\u00e9\n" : 1}`, `C07_C08_name_ok` -/
example : AtName 3 Settings.default (single [123, 32, 34, 97, 92, 117, 48, 48, 101, 57, 92, 110, 34, 32, 58, 32, 49, 125]) [123, 32, 34, 97, 92, 117, 48, 48, 101, 57, 92, 110, 34, 32, 58, 32, 49, 125] [.beginObject] [.ok .unit]
    ⟨none, 0, 2, 2⟩ ([34, 97, 92, 117, 48, 48, 101, 57, 92, 110, 34] ++ [32, 58, 32, 49, 125]) :=
  ⟨single_delivers _, ⟨_, rfl, rfl⟩, by simp, by decide +kernel, rfl⟩

theorem exBadName : AtName 3 Settings.default (single [123, 32, 34, 92, 120, 34, 32, 58, 32, 49, 125]) [123, 32, 34, 92, 120, 34, 32, 58, 32, 49, 125] [.beginObject] [.ok .unit]
    ⟨none, 0, 2, 2⟩ [34, 92, 120, 34, 32, 58, 32, 49, 125] := ⟨single_delivers _, ⟨_, rfl, rfl⟩, by simp, by decide +kernel, rfl⟩

/-- `{ "\x" : 1}`, `C07_C08_name_malformed` -/
example : ∀ bs r t, [34, 92, 120, 34, 32, 58, 32, 49, 125] = bs ++ r → ¬ Literal bs t := by
  intro bs r t hr hl
  have h1 := (C07_C08_name_ok (by decide) exBadName hr hl).1 .nextName (by simp)
  have h2 : runReader 3 Settings.default (single [123, 32, 34, 92, 120, 34, 32, 58, 32, 49, 125]) ([.beginObject] ++ [.nextName, .currentPosition false]) =
      [.ok .unit, .error (.syntax .unknownEscapeSequence ⟨some [.objectMember ['<', '?', '>']], 0, 3, 3⟩)] := by decide +kernel
  rw [h2] at h1
  simp at h1

/-- `C06_string`, `C06_name`: `é` is the encoding of a text, the single byte `0xE9` is not -/
example : Unescaped [0xC3, 0xA9] ∧ enc ['é'] = [0xC3, 0xA9] ∧ Unescaped [0xE9] ∧ ∀ t, enc t ≠ [0xE9] := by
  refine ⟨by unfold Unescaped; decide, by decide +kernel, by unfold Unescaped; decide, ?_⟩
  intro t h
  cases t with
  | nil => cases h
  | cons c t =>
    rw [Verif.enc_cons] at h
    have hs := encShape c
    generalize String.utf8EncodeChar c = bs at hs h
    cases hs <;> simp at h
    obtain ⟨rfl, _⟩ := h
    simp_all

end Verif.Props
