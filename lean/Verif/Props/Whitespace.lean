import Verif.Props.Tokens
/-!
# Whitespace and comments, and data behind the end of the document
-/

namespace Verif.Props
open Reader Abs Json Utf8 Usage Position

variable {N : Nat} {st : Settings} {sched : List ReadEvent} {bytes : Bytes} {pre : List Op} {rs : List (Except RErr Out)} {P : Position} {rest : Bytes}

/-- Calls which consume the end of a value -/
def consuming : Op → Bool
  | .nextString | .nextStr | .nextNumberAsStr | .nextNumberAsString | .nextBool | .nextNull | .skipValue | .endArray | .endObject => true
  | _ => false

theorem add_isVal {c : Ctx} {l : Lead} {v : Cst} (h : c.Slot l) : (c.add l v).isVal = false ∧ (c.add l v).isEmpty = false := by
  cases c <;> cases l <;> first | exact h.elim | simp [Ctx.add, Ctx.isEmpty, Ctx.isVal]

/-- behind the end of a value nothing is peeked -/
theorem consuming_wp {m : Mode} {s : St} {op : Op} (h : Inv st bytes True m s) (hop : consuming op = true) :
    Wp (runOp op) s (fun o s' => ∃ c pos r, s' = stp st c pos none r ∧ InvX st bytes True c pos r ∧ c.mode = m.next o op ∧ (c.isVal = false ∧ c.isEmpty = false)) (fun _ _ => True) := by
  cases h with
  | active x y h1 h2 h3 h4 =>
    rename_i c l pos r
    refine (active_panics (m := c.mode) (b := st.allowMultipleTopLevel) rfl ?_).wp (E := fun _ _ => True) fun _ _ => trivial
    cases op <;> first | rfl | exact Bool.noConfusion hop
  | @«at» c _ hA =>
    have vp : ∀ {v : Cst} {s' : St}, VPost st bytes True c s v s' → ∃ c2 pos r, s' = stp st c2 pos none r ∧ InvX st bytes True c2 pos r ∧ c2.mode = c.mode.valueDone ∧ (c2.isVal = false ∧ c2.isEmpty = false) := by
      rintro v s' ⟨l, pos, r, hl, h1, h2, _⟩
      exact ⟨_, _, _, h1, h2, mode_add hl, add_isVal hl⟩
    cases ha : c.mode.allowed st.allowMultipleTopLevel op with
    | false =>
      refine (not_allowed_panics hA.looks ha (by rintro p rfl; exact Bool.noConfusion hop)).wp (E := fun _ _ => True) fun _ _ => trivial
    | true =>
      refine Wp.mono (E := EOk st bytes True fun _ => True) ?_ (fun _ _ h => h) fun _ _ _ => trivial
      cases op <;> first | exact Bool.noConfusion hop | skip
      case endArray =>
        obtain ⟨u, l, d, rfl⟩ := canEndArray_iff.1 ha
        refine wp_unit (endArray_wp hA trivial) ?_
        rintro s' ⟨cl, pos, r, h1, h2, h3, h4⟩
        exact ⟨_, _, _, h2, h3, mode_add h1, add_isVal h1⟩
      case endObject =>
        obtain ⟨u, l, d, rfl⟩ := obj_of_emn (canName_iff.symm.trans ha)
        refine wp_unit (endObject_wp hA trivial) ?_
        rintro s' ⟨cl, pos, r, h1, h2, h3, h4⟩
        exact ⟨_, _, _, h2, h3, mode_add h1, add_isVal h1⟩
      all_goals obtain ⟨he, hc⟩ := canValue_iff.1 ha
      · refine Wp.bind' (nextString_wp hA hc he trivial) ?_
        rintro _ s' ⟨x, _, _, hV⟩
        exact Wp.pure (vp hV)
      · refine Wp.bind' (nextStr_wp hA hc he trivial) ?_
        rintro _ s' ⟨x, _, _, hV⟩
        exact Wp.pure (vp hV)
      · refine Wp.bind' (nextNumberAsStr_wp hA hc he trivial) ?_
        rintro _ s' ⟨x, _, _, _, hV⟩
        exact Wp.pure (vp hV)
      · refine Wp.bind' (nextNumberAsString_wp hA hc he trivial) ?_
        rintro _ s' ⟨x, _, _, _, hV⟩
        exact Wp.pure (vp hV)
      · refine Wp.bind' (nextBool_wp hA hc he trivial) ?_
        rintro _ s' hV
        exact Wp.pure (vp hV)
      · refine wp_unit (nextNull_wp hA hc he trivial) ?_
        rintro s' hV
        exact vp hV
      · refine wp_unit (skipValue_wp hA hc he) ?_
        rintro s' ⟨v, hV⟩
        exact vp hV

theorem after_append : ∀ (pre : List Op) {rs : List (Except RErr Out)} {ops : List Op} {r : List (Except RErr Out)} (m : Mode), rs.length = pre.length →
    Mode.after m (pre ++ ops) (rs ++ r) = (Mode.after m pre rs).bind fun m => Mode.after m ops r := by
  intro pre
  induction pre with
  | nil =>
    intro rs ops r m h
    cases List.length_eq_zero_iff.1 h
    rfl
  | cons o pre ih =>
    intro rs ops r m h
    cases rs with
    | nil => cases h
    | cons x rs =>
      have h' : rs.length = pre.length := by simpa using h
      cases x with
      | ok x =>
        simp only [List.cons_append, Mode.after]
        split
        · rfl
        · exact ih _ h'
      | error x =>
        simp only [List.cons_append, Mode.after]
        split
        · rfl
        · exact ih _ h'

/-- what is known behind a consuming call -/
theorem consumed_state (hN : 0 < N) (hd : Delivers sched bytes none) (hl : rs.length = pre.length) (hn : ∀ t l, Except.error (.unsupportedNumberValue t l) ∉ rs)
    {op : Op} (hop : consuming op = true) {o : Out}
    (h : runReader N st sched (pre ++ [op, .currentPosition false]) = rs ++ [.ok o, .ok (.position P)]) :
    ∃ c pos, InvX st bytes True c pos (bytes.drop P.dataPos) ∧ P = currentPosition (stp st c pos none (bytes.drop P.dataPos)) false ∧
      (∀ m, Mode.init.after (pre ++ [op]) (rs ++ [.ok o]) = some m → m = c.mode) ∧ (c.isVal = false ∧ c.isEmpty = false) ∧
      ∀ tail, runReader N st sched (pre ++ op :: tail) = rs ++ .ok o :: runOps tail (stp st c pos none (bytes.drop P.dataPos)) := by
  obtain ⟨m, s, hI, hm, hs, hp⟩ := behind_pre hN hd hl hn (by simp) h
  have hne : op ≠ .consumeTrailingWhitespace := by rintro rfl; exact Bool.noConfusion hop
  have hw := consuming_wp hI hop
  unfold Wp at hw
  cases hr : (runOp op).run s with
  | err e s' =>
    rw [runOps, hr] at hp
    simp at hp
  | ok x s' =>
    rw [hr] at hw
    obtain ⟨c, pos, r, rfl, hX, hmd, hval⟩ := hw
    rw [runOps_cons_ok hr hne, runOps_one] at hp
    simp only [List.cons.injEq, Except.ok.injEq, and_true] at hp
    obtain ⟨rfl, hp⟩ := hp
    have hP : P = currentPosition (stp st c pos none r) false := by
      have : (runOp (.currentPosition false)).run (stp st c pos none r) = .ok (.position (currentPosition (stp st c pos none r) false)) (stp st c pos none r) := rfl
      rw [this] at hp
      simp only [Except.ok.injEq, Out.position.injEq] at hp
      exact hp.symm
    obtain ⟨h1, h2⟩ := hX.exact trivial
    have hdrop : bytes.drop P.dataPos = r := by
      have : P.dataPos = c.bytes.length := by rw [hP, h2]; simp [currentPosition, stp, posOf_eq]
      rw [this, h1, List.drop_left]
    rw [hdrop]
    refine ⟨c, pos, hX, hP, ?_, hval, fun tail => ?_⟩
    · intro m2 h2
      rw [after_append pre _ hl] at h2
      cases h3 : Mode.init.after pre rs with
      | none => rw [h3] at h2; cases h2
      | some m3 =>
        rw [h3] at h2
        cases hm _ h3
        simp only [Option.bind_some, Mode.after, if_neg hne] at h2
        cases h2
        exact hmd.symm
    · rw [hs, runOps_cons_ok hr hne]

/-! ## Data behind the document -/

theorem consumed_top {c : Ctx} {pos : Pos} {m : Mode} (h : Mode.init.after (pre ++ [op]) (rs ++ [.ok o]) = some m) (hf : m.frames = []) (hs : m.started = true)
    (hm : ∀ m, Mode.init.after (pre ++ [op]) (rs ++ [.ok o]) = some m → m = c.mode) : ∃ d, c = .top d ∧ d ≠ [] := by
  cases hm m h
  obtain ⟨d, rfl⟩ := top_of_frames (c := c) (by rw [hf]; rfl)
  exact ⟨d, rfl, by simpa [Ctx.mode, Ctx.root] using hs⟩

variable {op : Op} {o : Out} {m : Mode}

/-- **C25** When a call has consumed the end of the top-level value, `consume_trailing_whitespace` succeeds if the rest of the input is whitespace (and
comments, if they are enabled; the last one can be a line comment which is not ended), and fails if the rest is anything else.

Partial because the claim is not restricted to the reader state directly behind the value: if multiple top-level values are enabled and `peek` or `has_next` has been called
behind the value, then the first token of the next value is not noticed, see `C25_counterexample_after_has_next` below. -/
theorem C25_trailing_partial (hN : 0 < N) (hd : Delivers sched bytes none) (hl : rs.length = pre.length) (hn : ∀ t l, Except.error (.unsupportedNumberValue t l) ∉ rs)
    (hop : consuming op = true)
    (h : runReader N st sched (pre ++ [op, .currentPosition false]) = rs ++ [.ok o, .ok (.position P)])
    (hm : Mode.init.after (pre ++ [op]) (rs ++ [.ok o]) = some m) (hf : m.frames = []) (hs : m.started = true) :
    (runReader N st sched (pre ++ [op, .consumeTrailingWhitespace]) = rs ++ [.ok o, .ok .unit] ∧ ∃ t : TrailWs, t.Ok st.allowComments ∧ bytes.drop P.dataPos = t.bytes) ∨
    ((∃ e, Malformed e ∧ runReader N st sched (pre ++ [op, .consumeTrailingWhitespace]) = rs ++ [.ok o, .error e]) ∧
      ¬ ∃ t : TrailWs, t.Ok st.allowComments ∧ bytes.drop P.dataPos = t.bytes) := by
  obtain ⟨c, pos, hX, _, hc, hval, hrun⟩ := consumed_state hN hd hl hn hop h
  obtain ⟨d, rfl, hne⟩ := consumed_top (pos := pos) hm hf hs hc
  rw [hrun, runOps_one]
  by_cases ht : ∃ t : TrailWs, t.Ok st.allowComments ∧ bytes.drop P.dataPos = t.bytes
  · obtain ⟨t, ht, hr⟩ := ht
    refine .inl ⟨?_, t, ht, hr⟩
    rw [hr]
    have : (runOp .consumeTrailingWhitespace).run (stp st (.top d) pos none t.bytes) = .ok .unit (stp st (.top d) (pos.over t.bytes) none []) :=
      (M.bind_ok (consumeTrailing_ok hne ht)).trans rfl
    rw [this]
  · refine .inr ⟨?_, ht⟩
    have hw : Lo (runOp .consumeTrailingWhitespace) (stp st (.top d) pos none (bytes.drop P.dataPos)) fun _ _ => False :=
      Wp.bind' (consumeTrailing_at (.n hX.toInvN) hne) fun _ _ h => absurd h ht
    unfold Lo Wp at hw
    cases hr : (runOp .consumeTrailingWhitespace).run (stp st (.top d) pos none (bytes.drop P.dataPos)) with
    | ok _ _ => rw [hr] at hw; exact hw.elim
    | err e _ =>
      rw [hr] at hw
      exact ⟨e, malformed_of hw, rfl⟩

/-- **C25** If the whitespace is followed by something which is neither whitespace nor a comment, then the error is `TrailingData`, at the place of the first byte behind the
whitespace. -/
theorem C25_trailing_data (hN : 0 < N) (hd : Delivers sched bytes none) (hl : rs.length = pre.length) (hn : ∀ t l, Except.error (.unsupportedNumberValue t l) ∉ rs)
    (hop : consuming op = true)
    (h : runReader N st sched (pre ++ [op, .currentPosition false]) = rs ++ [.ok o, .ok (.position P)])
    (hm : Mode.init.after (pre ++ [op]) (rs ++ [.ok o]) = some m) (hf : m.frames = []) (hs : m.started = true)
    {w : Ws} {b : UInt8} {rest : Bytes} (hw : w.Ok st.allowComments) (hb : b ∉ [0x20, 0x09, 0x0A, 0x0D, 0x2F]) (hr : bytes.drop P.dataPos = w.bytes ++ b :: rest) :
    ∃ L : Position, runReader N st sched (pre ++ [op, .consumeTrailingWhitespace]) = rs ++ [.ok o, .error (.syntax .trailingData L)] ∧
      L.dataPos = P.dataPos + w.bytes.length ∧ L.line = lineBreaks (bytes.take L.dataPos) ∧ L.column = charCount (lastLine (bytes.take L.dataPos)) := by
  obtain ⟨c, pos, hX, hP, hc, hval, hrun⟩ := consumed_state hN hd hl hn hop h
  obtain ⟨d, rfl, hne⟩ := consumed_top (pos := pos) hm hf hs hc
  obtain ⟨h1, h2⟩ := hX.exact trivial
  have hb : TokStart b := by
    simp only [List.mem_cons, List.not_mem_nil, or_false, not_or] at hb
    obtain ⟨b1, b2, b3, b4, b5⟩ := hb
    exact ⟨by rintro (h | h | h | h) <;> contradiction, b5⟩
  rw [hrun, hr, runOps_one]
  have hpos : pos.over w.bytes = posOf ((Ctx.top d).bytes ++ w.bytes) := by rw [h2, posOf_over (Ctx.noCr (hX.good trivial).1).noSplit]
  have hdp : P.dataPos = (Ctx.top d).bytes.length := by rw [hP, h2]; simp [currentPosition, stp, posOf_eq]
  have hrun : (runOp .consumeTrailingWhitespace).run (stp st (.top d) pos none (w.bytes ++ b :: rest)) =
      .err (.syntax .trailingData (loc (stp st (.top d) (pos.over w.bytes) none (b :: rest)))) (stp st (.top d) (pos.over w.bytes) none (b :: rest)) := by
    refine M.bind_err ?_
    unfold consumeTrailingWhitespace
    rw [run_get, if_neg (by exact Bool.false_ne_true), if_pos (by rfl), if_neg (by simpa [stp, Ctx.isEmpty] using hne), M.bind_ok (skipWhitespace_tok rfl hw hb rfl)]
    rfl
  rw [hrun]
  refine ⟨_, rfl, ?_⟩
  have htake : bytes.take (P.dataPos + w.bytes.length) = (Ctx.top d).bytes ++ w.bytes := by
    rw [h1, hr, hdp, ← List.length_append, ← List.append_assoc, List.take_left]
  have hl : (loc (stp st (.top d) (pos.over w.bytes) none (b :: rest))).dataPos = P.dataPos + w.bytes.length := by
    rw [hpos, hdp]; simp [loc, currentPosition, stp, posOf_eq]
  rw [hl, htake]
  refine ⟨rfl, ?_, ?_⟩
  · rw [hpos]; simp [loc, currentPosition, stp, posOf_eq]
  · rw [hpos]; simp [loc, currentPosition, stp, posOf_eq]

/-! ## Between the values -/

theorem runOps_position {s : St} {b : Bool} {l : List Op} : runOps (.currentPosition b :: l) s = .ok (.position (currentPosition s b)) :: runOps l s :=
  runOps_cons_ok (s' := s) rfl (by rintro ⟨⟩)

/-- **C26** What is between the end of a value and the next value is whitespace (and comments, if they are enabled); in an array there is exactly one comma in it. -/
theorem C26_between (hN : 0 < N) (hd : Delivers sched bytes none) (hl : rs.length = pre.length) (hn : ∀ t l, Except.error (.unsupportedNumberValue t l) ∉ rs)
    (hop : consuming op = true) {x : Out} {P2 : Position}
    (h : runReader N st sched (pre ++ [op, .currentPosition false, .peek, .currentPosition false]) = rs ++ [.ok o, .ok (.position P), .ok x, .ok (.position P2)])
    (hm : Mode.init.after (pre ++ [op]) (rs ++ [.ok o]) = some m) :
    ∃ gap, bytes.drop P.dataPos = gap ++ bytes.drop P2.dataPos ∧
      if m.frames = [] then ∃ w : Ws, w.Ok st.allowComments ∧ gap = w.bytes
      else ∃ w1 w2 : Ws, w1.Ok st.allowComments ∧ w2.Ok st.allowComments ∧ gap = w1.bytes ++ 0x2C :: w2.bytes := by
  have h1 : runReader N st sched (pre ++ [op, .currentPosition false]) = rs ++ [.ok o, .ok (.position P)] := by
    obtain ⟨m, s, hI, hm, hs, hp⟩ := behind_pre hN hd hl hn (by simp) h
    rw [hs]
    congr 1
    have hne : op ≠ .consumeTrailingWhitespace := by rintro rfl; exact Bool.noConfusion hop
    cases hr : (runOp op).run s with
    | err e s' =>
      rw [runOps, hr] at hp
      simp at hp
    | ok y s' =>
      rw [runOps_cons_ok hr hne] at hp ⊢
      rw [runOps_position] at hp
      rw [runOps_position, runOps]
      simp only [List.cons.injEq] at hp
      rw [hp.1, hp.2.1]
  obtain ⟨c, pos, hX, hP, hc, hval, hrun⟩ := consumed_state hN hd hl hn hop h1
  rw [hrun, List.append_cancel_left_eq, List.cons.injEq, runOps_position, List.cons.injEq] at h
  obtain ⟨_, _, h⟩ := h
  obtain ⟨e1, e2⟩ := hX.exact trivial
  have hw : Wp (runOp .peek) (stp st c pos none (bytes.drop P.dataPos)) (fun _ s' => ∃ p l pos r, isValue p = true ∧ s' = stp st c pos (some p) r ∧ InvP st bytes True c p l pos r) fun _ _ => True := by
    cases ha : c.mode.allowed st.allowMultipleTopLevel .peek with
    | false =>
      exact (not_allowed_panics (At.looks (.n hX.toInvN)) ha nofun).wp (E := fun _ _ => True) fun _ _ => trivial
    | true =>
      obtain ⟨he, hc⟩ := canValue_iff.1 ha
      refine Wp.mono (E := EOk st bytes True fun _ => True) ?_ (fun _ _ h => h) fun _ _ _ => trivial
      refine Wp.bind' (peek_wp (.n hX.toInvN) hc he trivial) ?_
      rintro _ _ ⟨p, l, pos, r, h1, _, rfl, hP, _⟩
      exact Wp.pure ⟨p, l, pos, r, h1, rfl, hP⟩
  unfold Wp at hw
  cases hr : (runOp .peek).run (stp st c pos none (bytes.drop P.dataPos)) with
  | err e s' =>
    rw [runOps, hr] at h
    simp at h
  | ok y s' =>
    rw [hr] at hw
    obtain ⟨p, l, pos2, r, hv, rfl, hI⟩ := hw
    rw [runOps_cons_ok hr nofun, runOps_one] at h
    simp only [List.cons.injEq, and_true] at h
    have h2 : P2 = currentPosition (stp st c pos2 (some p) r) false := by
      have : (runOp (.currentPosition false)).run (stp st c pos2 (some p) r) = .ok (.position (currentPosition (stp st c pos2 (some p) r) false)) (stp st c pos2 (some p) r) := rfl
      rw [this] at h
      simp only [Except.ok.injEq, Out.position.injEq] at h
      exact h.2.symm
    obtain ⟨hok, g1, g2⟩ := hI.good trivial
    have hdp : P2.dataPos = (c.bytes ++ l.bytes).length := by rw [h2, g2]; simp [currentPosition, stp, posOf_eq]
    have hd2 : bytes.drop P2.dataPos = tokBytes p ++ r := by 
      rw [hdp]
      exact (congrArg (List.drop _) (g1.trans (List.append_assoc _ _ _).symm)).trans List.drop_left
    refine ⟨l.bytes, ?_, ?_⟩
    · rw [hd2]
      exact List.append_cancel_left (e1.symm.trans g1)
    · have hld := hI.lead
      cases hc m hm
      cases c with
      | top d => cases l <;> first | exact hld.elim | exact (if_pos (c := _ = _) rfl).mpr ⟨_, hld.2.1, rfl⟩
      | arr up le d =>
        cases l with
        | sep s =>
          rcases hld with ⟨rfl, _⟩ | ⟨_, hs⟩
          · exact Bool.noConfusion hv
          · rw [if_neg (by intro h; cases h)]
            cases s with
            | plain w =>
              have : d.isEmpty = true := hs.1
              rw [show d.isEmpty = false from hval.2] at this
              cases this
            | comma w1 w2 => exact ⟨w1, w2, hs.2.1, hs.2.2, rfl⟩
        | _ => exact hld.elim
      | obj up le d =>
        cases l with
        | sep s => rcases hld with ⟨rfl, _⟩ | ⟨rfl, _⟩ <;> exact Bool.noConfusion hv
        | _ => exact hld.elim
      | val => exact Bool.noConfusion hval.1

/-- **C26** Whitespace and comments are skipped, whatever follows them: the next byte is found, and the position is moved over them. `s` is any state of the reader
(in front of any token the whitespace is skipped with this function). -/
theorem C26_skip {k : Option SyntaxKind} {s : St} {w : Ws} {b : UInt8} {rest : Bytes} (ht : s.src.term = none) (hw : w.Ok s.settings.allowComments)
    (hb : b ∉ [0x20, 0x09, 0x0A, 0x0D, 0x2F]) (hr : s.src.rest = w.bytes ++ b :: rest) :
    ∃ s', (skipWhitespace k).run s = .ok (some b) s' ∧ s'.src.rest = b :: rest ∧ s'.bytePos = s.bytePos + w.bytes.length ∧ s'.line = s.line + lineBreaks w.bytes := by
  have hb : TokStart b := by
    simp only [List.mem_cons, List.not_mem_nil, or_false, not_or] at hb
    obtain ⟨b1, b2, b3, b4, b5⟩ := hb
    exact ⟨by rintro (h | h | h | h) <;> contradiction, b5⟩
  refine ⟨_, skipWhitespace_tok ht hw hb hr, rfl, ?_, ?_⟩
  · exact posRun_byte w.bytes (pos s) false
  · exact posRun_line w.bytes (pos s) false

/-- **C26** and nothing else is skipped: if a byte is found then it is preceded by whitespace and comments; otherwise the input consists of them, or it is malformed. -/
theorem C26_skip_only {k : Option SyntaxKind} {s : St} (ht : s.src.term = none) :
    match (skipWhitespace k).run s with
    | .ok (some b) _ => ∃ (w : Ws) (rest : Bytes), w.Ok s.settings.allowComments ∧ s.src.rest = w.bytes ++ b :: rest ∧ b ∉ [0x20, 0x09, 0x0A, 0x0D, 0x2F]
    | .ok none _ => ∃ w : TrailWs, w.Ok s.settings.allowComments ∧ s.src.rest = w.bytes
    | .err e _ => Malformed e := by
  have h := skipWhitespace_lo (k := k) ht
  unfold Lo Wp at h
  cases hr : (skipWhitespace k).run s with
  | err e s' => rw [hr] at h; exact malformed_of h
  | ok o s' =>
    rw [hr] at h
    rcases h with ⟨w, b, t, hw, hb, rfl, h1, _⟩ | ⟨_, rfl, w, hw, h1, _⟩
    · refine ⟨w, t, hw, h1, ?_⟩
      simp only [List.mem_cons, List.not_mem_nil, or_false]
      rintro (h | h | h | h | h)
      · exact hb.1 (.inl h)
      · exact hb.1 (.inr (.inl h))
      · exact hb.1 (.inr (.inr (.inl h)))
      · exact hb.1 (.inr (.inr (.inr h)))
      · exact hb.2 h
    · exact ⟨w, hw, h1⟩

theorem ws_spaces {w : Ws} (h : w.Ok false) : ∀ b ∈ w.bytes, b ∈ [0x20, 0x09, 0x0A, 0x0D] := by
  intro b hb
  obtain ⟨i, hi, hb⟩ := List.mem_flatMap.1 hb
  have := h i hi
  cases i with
  | space x => cases List.mem_singleton.1 hb; simpa [WsItem.Ok] using this
  | line cs nl => exact Bool.noConfusion this.1
  | block cs => exact Bool.noConfusion this.1

/-- **C26** If comments are disabled then a `/` behind the whitespace is an error. -/
theorem C26_comments_disabled {k : Option SyntaxKind} {s : St} {w : Ws} {rest : Bytes} (ht : s.src.term = none) (hc : s.settings.allowComments = false) (hw : w.Ok false)
    (hr : s.src.rest = w.bytes ++ 0x2F :: rest) : ∃ e s', (skipWhitespace k).run s = .err e s' ∧ Malformed e := by
  have h := C26_skip_only (k := k) ht
  cases hs : (skipWhitespace k).run s with
  | err e s' => rw [hs] at h; exact ⟨e, s', rfl, h⟩
  | ok o s' =>
    rw [hs, hc] at h
    have hsp := ws_spaces hw
    cases o with
    | none =>
      obtain ⟨⟨ws, oc⟩, ⟨h1, h2⟩, h3⟩ := h
      cases oc with
      | some cs => exact Bool.noConfusion (h2 cs rfl).1
      | none =>
        have : (0x2F : UInt8) ∈ s.src.rest := by rw [hr]; simp
        rw [h3, TrailWs.bytes, List.append_nil] at this
        exact absurd (ws_spaces h1 _ this) (by decide)
    | some b =>
      obtain ⟨w', r', h1, h2, h3⟩ := h
      have hsp' := ws_spaces h1
      have key : ∀ {a x : Bytes} {y z : UInt8} {u v : Bytes}, (∀ b ∈ a, b ∈ [0x20, 0x09, 0x0A, 0x0D]) → (∀ b ∈ x, b ∈ [0x20, 0x09, 0x0A, 0x0D]) →
          y ∉ [0x20, 0x09, 0x0A, 0x0D] → z ∉ [0x20, 0x09, 0x0A, 0x0D] → a ++ y :: u = x ++ z :: v → y = z := by
        intro a
        induction a with
        | nil =>
          intro x y z u v _ hx hy hz h
          cases x with
          | nil => cases h; rfl
          | cons b x => cases h; exact absurd (hx _ (by simp)) hy
        | cons b a ih =>
          intro x y z u v ha hx hy hz h
          cases x with
          | nil => cases h; exact absurd (ha _ (by simp)) hz
          | cons c x =>
            rw [List.cons_append, List.cons_append, List.cons.injEq] at h
            exact ih (fun b hb => ha b (by simp [hb])) (fun b hb => hx b (by simp [hb])) hy hz h.2
      have := key (y := 0x2F) hsp hsp' (by decide) (fun h => h3 (List.mem_append.2 (.inl h))) (hr.symm.trans h2)
      subst this
      simp at h3

/-! ## UTF-8 in comments -/

theorem infix_first {a x u v : Bytes} (ha : ¬ [0x2A, 0x2F] <:+: a) (hx : ¬ [0x2A, 0x2F] <:+: x) (h : a ++ [0x2A, 0x2F] ++ u = x ++ [0x2A, 0x2F] ++ v) : a = x := by
  have key : ∀ {a x u v : Bytes}, ¬ [0x2A, 0x2F] <:+: x → ∀ d, x = a ++ d → [0x2A, 0x2F] ++ u = d ++ ([0x2A, 0x2F] ++ v) → a = x := by
    intro a x u v hx d h1 h2
    match d, h2 with
    | [], _ => simpa using h1.symm
    | [y], h2 => simp at h2
    | y :: z :: d, h2 =>
      simp only [List.cons_append, List.nil_append, List.cons.injEq] at h2
      obtain ⟨rfl, rfl, _⟩ := h2
      exact absurd ⟨a, d, by rw [h1]; simp⟩ hx
  rw [List.append_assoc, List.append_assoc] at h
  rcases List.append_eq_append_iff.1 h with ⟨d, h1, h2⟩ | ⟨d, h1, h2⟩
  · exact key hx d h1 h2
  · exact (key ha d h1 h2).symm

theorem encode_tail {c : Char} {b : UInt8} {t : Bytes} (h : String.utf8EncodeChar c = b :: t) : ∀ x ∈ t, 0x80 ≤ x.toNat := by
  have hs := encShape c
  rw [h] at hs
  cases hs <;> simp_all

theorem enc_infix {cs : Text} (h : ¬ ['*', '/'] <:+: cs) : ¬ [0x2A, 0x2F] <:+: enc cs := by
  induction cs with
  | nil => rintro ⟨p, q, h⟩; simp [enc] at h
  | cons c cs ih =>
    rintro ⟨p, q, hp⟩
    have ih := ih fun ⟨p, q, h'⟩ => h ⟨c :: p, q, by rw [← h']; rfl⟩
    rw [Verif.enc_cons, List.append_assoc] at hp
    rcases List.append_eq_append_iff.1 hp with ⟨d, h1, h2⟩ | ⟨d, h1, h2⟩
    · -- the star is in the first character
      cases d with
      | nil => exact ih ⟨[], q, by simpa using h2⟩
      | cons y d =>
        simp only [List.cons_append, List.nil_append, List.cons.injEq] at h2
        obtain ⟨rfl, h2⟩ := h2
        cases p with
        | cons z p =>
          -- a byte in the middle of a character
          have := encode_tail (c := c) (b := z) (t := p ++ 0x2A :: d) h1 0x2A (by simp)
          exact absurd this (by decide)
        | nil =>
          obtain ⟨h3, rfl⟩ := char_of_ascii_head (c := c) (b := 0x2A) (t := d) h1 (by decide)
          have hc : c = '*' := Char.toNat_inj.1 h3
          subst hc
          cases cs with
          | nil => simp [enc] at h2
          | cons c2 cs =>
            rw [Verif.enc_cons] at h2
            have hne := encodeChar_ne_nil c2
            cases he : String.utf8EncodeChar c2 with
            | nil => exact hne he
            | cons b t =>
              rw [he] at h2
              simp only [List.nil_append, List.cons_append, List.cons.injEq] at h2
              obtain ⟨h4, rfl⟩ := char_of_ascii_head he (by rw [← h2.1]; decide)
              have hc2 : c2 = '/' := Char.toNat_inj.1 (by rw [h4, ← h2.1]; rfl)
              exact h ⟨[], cs, by rw [hc2]; rfl⟩
    · exact ih ⟨d, q, by rw [List.append_assoc]; exact h2.symm⟩

theorem char_byte {cs : Text} {c : Char} (hc : c ∈ cs) (h : c.toNat < 0x80) : ∃ b ∈ enc cs, b.toNat = c.toNat := by
  obtain ⟨b, h1, h2⟩ := encodeChar_ascii h
  exact ⟨b, List.mem_flatMap.2 ⟨c, hc, by rw [h2]; exact List.mem_singleton.2 rfl⟩, h1⟩

/-- Bytes which comments may consist of; all bytes which are not ASCII are included -/
def LineCommentByte (b : UInt8) : Prop := 0x20 ≤ b.toNat ∨ b = 0x09
def BlockCommentByte (b : UInt8) : Prop := LineCommentByte b ∨ b = 0x0A ∨ b = 0x0D

theorem lineChars {cs : Text} (h : ∀ b ∈ enc cs, LineCommentByte b) : ∀ c ∈ cs, LineCommentChar c := by
  intro c hc
  by_cases h1 : c.toNat < 0x80
  · obtain ⟨b, hb, hv⟩ := char_byte hc h1
    rcases h b hb with h | rfl
    · exact .inl (by omega)
    · exact .inr (Char.toNat_inj.1 hv.symm)
  · exact .inl (by omega)

theorem blockChars {cs : Text} (h : ∀ b ∈ enc cs, BlockCommentByte b) : ∀ c ∈ cs, BlockCommentChar c := by
  intro c hc
  by_cases h1 : c.toNat < 0x80
  · obtain ⟨b, hb, hv⟩ := char_byte hc h1
    rcases h b hb with (h | rfl) | rfl | rfl
    · exact .inl (.inl (by omega))
    · exact .inl (.inr (Char.toNat_inj.1 hv.symm))
    · exact .inr (.inl (Char.toNat_inj.1 hv.symm))
    · exact .inr (.inr (Char.toNat_inj.1 hv.symm))
  · exact .inl (.inl (by omega))

theorem block_ws {x : Bytes} (hx : ∀ b ∈ x, BlockCommentByte b) (hi : ¬ [0x2A, 0x2F] <:+: x) :
    (∃ t : TrailWs, t.Ok true ∧ [0x2F, 0x2A] ++ x ++ [0x2A, 0x2F] = t.bytes) ↔ ValidUtf8 x := by
  constructor
  · rintro ⟨⟨ws, oc⟩, ⟨h1, h2⟩, h⟩
    cases ws with
    | nil => cases oc <;> simp [TrailWs.bytes, Ws.bytes] at h
    | cons i ws =>
      have hi' := h1 i (by simp)
      cases i with
      | space b =>
        simp only [TrailWs.bytes, Ws.bytes, List.flatMap_cons, WsItem.bytes, List.cons_append, List.nil_append, List.cons.injEq] at h
        rcases hi' with rfl | rfl | rfl | rfl <;> exact absurd h.1 (by decide)
      | line cs nl => simp [TrailWs.bytes, Ws.bytes, WsItem.bytes] at h
      | block cs =>
        refine ⟨cs, (infix_first (u := ?_) (v := []) (enc_infix hi'.2.2) hi ?_).symm⟩
        · exact TrailWs.bytes ⟨ws, oc⟩
        · have h3 : (⟨.block cs :: ws, oc⟩ : TrailWs).bytes = [0x2F, 0x2A] ++ (enc cs ++ [0x2A, 0x2F] ++ TrailWs.bytes ⟨ws, oc⟩) := by
            simp [TrailWs.bytes, Ws.bytes, WsItem.bytes]
          rw [h3, List.append_assoc] at h
          rw [List.append_nil]
          exact (List.append_cancel_left h).symm
  · rintro ⟨cs, rfl⟩
    refine ⟨⟨[.block cs], none⟩, ⟨?_, nofun⟩, by simp [TrailWs.bytes, Ws.bytes, WsItem.bytes]⟩
    intro i hi'
    cases List.mem_singleton.1 hi'
    refine ⟨rfl, blockChars hx, ?_⟩
    rintro ⟨p, q, rfl⟩
    exact hi ⟨enc p, enc q, by rw [Verif.enc_append, Verif.enc_append]; rfl⟩

theorem line_ws {x : Bytes} (hx : ∀ b ∈ x, LineCommentByte b) :
    (∃ t : TrailWs, t.Ok true ∧ [0x2F, 0x2F] ++ x = t.bytes) ↔ ValidUtf8 x := by
  constructor
  · rintro ⟨⟨ws, oc⟩, ⟨h1, h2⟩, h⟩
    cases ws with
    | nil =>
      cases oc with
      | none => simp [TrailWs.bytes, Ws.bytes] at h
      | some cs => exact ⟨cs, by simpa [TrailWs.bytes, Ws.bytes] using h⟩
    | cons i ws =>
      have hi' := h1 i (by simp)
      cases i with
      | space b =>
        simp only [TrailWs.bytes, Ws.bytes, List.flatMap_cons, WsItem.bytes, List.cons_append, List.nil_append, List.cons.injEq] at h
        rcases hi' with rfl | rfl | rfl | rfl <;> exact absurd h.1 (by decide)
      | block cs => simp [TrailWs.bytes, Ws.bytes, WsItem.bytes] at h
      | line cs nl =>
        simp only [TrailWs.bytes, Ws.bytes, List.flatMap_cons, WsItem.bytes, List.cons_append, List.nil_append, List.cons.injEq, List.append_assoc, true_and] at h
        have := hx nl (by rw [h]; simp)
        rcases hi'.2.2 with rfl | rfl <;> rcases this with h | h <;> exact absurd h (by decide)
  · rintro ⟨cs, rfl⟩
    refine ⟨⟨[], some cs⟩, ⟨nofun, ?_⟩, by simp [TrailWs.bytes, Ws.bytes]⟩
    rintro _ ⟨⟩
    exact ⟨rfl, lineChars hx⟩

/-- **C06** A comment is accepted if and only if its content is valid UTF-8. (Control characters must not occur in comments, a block comment is ended by the first `*/`;
here the comment is the last thing in the input.) -/
theorem C06_comment (hN : 0 < N) (hd : Delivers sched bytes none) (hl : rs.length = pre.length) (hn : ∀ t l, Except.error (.unsupportedNumberValue t l) ∉ rs)
    (hop : consuming op = true)
    (h : runReader N st sched (pre ++ [op, .currentPosition false]) = rs ++ [.ok o, .ok (.position P)])
    (hm : Mode.init.after (pre ++ [op]) (rs ++ [.ok o]) = some m) (hf : m.frames = []) (hs : m.started = true) (hc : st.allowComments = true) {x : Bytes}
    (hr : (bytes.drop P.dataPos = [0x2F, 0x2A] ++ x ++ [0x2A, 0x2F] ∧ (∀ b ∈ x, BlockCommentByte b) ∧ ¬ [0x2A, 0x2F] <:+: x) ∨
      (bytes.drop P.dataPos = [0x2F, 0x2F] ++ x ∧ ∀ b ∈ x, LineCommentByte b)) :
    runReader N st sched (pre ++ [op, .consumeTrailingWhitespace]) = rs ++ [.ok o, .ok .unit] ↔ ValidUtf8 x := by
  have key : (∃ t : TrailWs, t.Ok st.allowComments ∧ bytes.drop P.dataPos = t.bytes) ↔ ValidUtf8 x := by
    rw [hc]
    rcases hr with ⟨hr, h1, h2⟩ | ⟨hr, h1⟩
    · rw [hr]; exact block_ws h1 h2
    · rw [hr]; exact line_ws h1
  rw [← key]
  rcases C25_trailing_partial hN hd hl hn hop h hm hf hs with ⟨h1, h2⟩ | ⟨⟨e, _, h1⟩, h2⟩
  · exact ⟨fun _ => h2, fun _ => h1⟩
  · refine ⟨fun h3 => ?_, fun h3 => absurd h3 h2⟩
    rw [h1] at h3
    simp at h3

/-! ## Examples -/

/-- reading `[true] /*é*/ x` (comments enabled) up to the end of the array -/
theorem exTrailing : runReader 3 { Settings.default with allowComments := true } (single [91, 116, 114, 117, 101, 93, 32, 47, 42, 195, 169, 42, 47, 32, 120])
    ([.beginArray, .nextBool] ++ [.endArray, .currentPosition false]) = [.ok .unit, .ok (.bool true)] ++ [.ok .unit, .ok (.position ⟨none, 0, 6, 6⟩)] := by decide +kernel

/-- `C25_trailing_partial` -/
example : Mode.init.after ([.beginArray, .nextBool] ++ [.endArray]) ([.ok .unit, .ok (.bool true)] ++ [.ok .unit]) = some ⟨[], true, false⟩ ∧ consuming .endArray = true ∧
    runReader 3 { Settings.default with allowComments := true } (single [91, 116, 114, 117, 101, 93, 32, 47, 42, 195, 169, 42, 47, 32, 120])
      ([.beginArray, .nextBool] ++ [.endArray, .consumeTrailingWhitespace]) =
      [.ok .unit, .ok (.bool true), .ok .unit, .error (.syntax .trailingData ⟨some [], 0, 13, 14⟩)] ∧
    runReader 3 { Settings.default with allowComments := true } (single [91, 116, 114, 117, 101, 93, 32, 47, 42, 195, 169, 42, 47, 32])
      ([.beginArray, .nextBool] ++ [.endArray, .consumeTrailingWhitespace]) = [.ok .unit, .ok (.bool true), .ok .unit, .ok .unit] := by decide +kernel

/-- `C25_trailing_data` for this input: the whitespace is ` /*é*/ ` -/
example : (bytes : Bytes) = [91, 116, 114, 117, 101, 93, 32, 47, 42, 195, 169, 42, 47, 32, 120] →
    Ws.Ok true [.space 0x20, .block ['é'], .space 0x20] ∧ bytes.drop 6 = Ws.bytes [.space 0x20, .block ['é'], .space 0x20] ++ 0x78 :: [] := by
  rintro rfl
  refine ⟨?_, by decide +kernel⟩
  intro i hi
  simp only [List.mem_cons, List.not_mem_nil, or_false] at hi
  rcases hi with rfl | rfl | rfl
  · exact .inl rfl
  · exact ⟨rfl, by simp [BlockCommentChar, LineCommentChar], by decide⟩
  · exact .inl rfl

/-- Why C25 is partial: if multiple top-level values are enabled, and `has_next` has been called behind the value, then the literal `null` of `1 null` has been consumed, and
`consume_trailing_whitespace` succeeds although there is another value. -/
theorem C25_counterexample_after_has_next : runReader 3 { Settings.default with allowMultipleTopLevel := true } (single [49, 32, 110, 117, 108, 108])
    [.nextNumberAsStr, .hasNext, .consumeTrailingWhitespace] = [.ok (.text ['1']), .ok (.bool true), .ok .unit] := by decide +kernel

/-- `[1 , "a"]`, `C26_between` -/
example : runReader 3 Settings.default (single [91, 49, 32, 44, 32, 34, 97, 34, 93]) ([.beginArray] ++ [.nextNumberAsStr, .currentPosition false, .peek, .currentPosition false]) =
    [.ok .unit] ++ [.ok (.text ['1']), .ok (.position ⟨none, 0, 2, 2⟩), .ok (.type .string), .ok (.position ⟨none, 0, 5, 5⟩)] := by decide +kernel

/-- `1 //é`, `C06_comment` -/
example : runReader 3 { Settings.default with allowComments := true } (single [49, 47, 47, 195, 169]) ([] ++ [.nextNumberAsStr, .currentPosition false]) =
      [] ++ [.ok (.text ['1']), .ok (.position ⟨none, 0, 1, 1⟩)] ∧
    Mode.init.after ([] ++ [.nextNumberAsStr]) ([] ++ [.ok (.text ['1'])]) = some ⟨[], true, false⟩ ∧
    ([49, 47, 47, 195, 169] : Bytes).drop 1 = [0x2F, 0x2F] ++ [0xC3, 0xA9] ∧ (∀ b ∈ ([0xC3, 0xA9] : Bytes), LineCommentByte b) := by
  refine ⟨by decide +kernel, by decide +kernel, rfl, by simp [LineCommentByte]⟩

/-- the same with the second byte of `é` missing -/
example : runReader 3 { Settings.default with allowComments := true } (single [49, 47, 47, 0xC3]) [.nextNumberAsStr, .consumeTrailingWhitespace] =
    [.ok (.text ['1']), .error (.syntax .incompleteDocument ⟨some [], 0, 3, 3⟩)] := by decide +kernel

/-- `C26_skip`, `C26_comments_disabled`: comments are enabled in the first case -/
example : (match (skipWhitespace none).run (new (σ := AbsSrc) ⟨[32, 47, 42, 195, 169, 42, 47, 32, 120], none, []⟩ { Settings.default with allowComments := true }) with
      | .ok a s => some (a, s.src.rest, s.bytePos) | _ => none) = some (some 0x78, [0x78], 8) ∧
    (match (skipWhitespace none).run (new (σ := AbsSrc) ⟨[32, 47, 42, 195, 169, 42, 47, 32, 120], none, []⟩ Settings.default) with
      | .err e _ => some e | _ => none) = some (.syntax .commentsNotEnabled ⟨some [], 0, 1, 1⟩) := by decide +kernel


end Verif.Props
