import Verif.Props.Whitespace
/-!
# Data behind the end of the document, for all sequences of calls
-/

namespace Verif.Props
open Reader Abs Json Utf8 Usage Position

variable {N : Nat} {st : Settings} {sched : List ReadEvent} {bytes : Bytes} {pre : List Op} {rs : List (Except RErr Out)} {P : Position} {m : Mode}

/-- only whitespace (and comments, if they are enabled; the last one can be a line comment which is not ended) -/
def OnlyTrail (st : Settings) (bs : Bytes) : Prop := ∃ t : TrailWs, t.Ok st.allowComments ∧ bs = t.bytes

/-- the outcome of `consume_trailing_whitespace` behind `pre` is decided by the bytes `bs` -/
def DecidedBy (N : Nat) (st : Settings) (sched : List ReadEvent) (pre : List Op) (rs : List (Except RErr Out)) (bs : Bytes) : Prop :=
  (runReader N st sched (pre ++ [.consumeTrailingWhitespace]) = rs ++ [.ok .unit] ∧ OnlyTrail st bs) ∨
  ((∃ e, Malformed e ∧ runReader N st sched (pre ++ [.consumeTrailingWhitespace]) = rs ++ [.error e]) ∧ ¬ OnlyTrail st bs)

theorem decided_at {s : St} {d : List (Ws × Cst)} (hA : At st bytes True (.top d) s) (hd : d ≠ [])
    (hs : runReader N st sched (pre ++ [.consumeTrailingWhitespace]) = rs ++ runOps [.consumeTrailingWhitespace] s) : DecidedBy N st sched pre rs s.src.rest := by
  unfold DecidedBy
  rw [hs, runOps_one]
  by_cases ht : OnlyTrail st s.src.rest
  · refine .inl ⟨?_, ht⟩
    obtain ⟨t, ht, hr⟩ := ht
    have : ∃ s', (runOp .consumeTrailingWhitespace).run s = .ok .unit s' := by
      cases hA with
      | n h =>
        cases (show _ = t.bytes from hr)
        exact ⟨_, (M.bind_ok (consumeTrailing_ok hd ht)).trans rfl⟩
      | @p pk l pos r h =>
        cases (show _ = t.bytes from hr)
        refine ⟨stp st (.top d) (pos.over t.bytes) (some pk) [], (M.bind_ok (a := ()) ?_).trans rfl⟩
        unfold consumeTrailingWhitespace
        rw [run_get, if_neg (by exact Bool.false_ne_true), if_pos (by rfl), if_neg (by simpa [stp, Ctx.isEmpty] using hd), M.bind_ok (skipWhitespace_eof rfl ht rfl)]
        rfl
    obtain ⟨s', h⟩ := this
    rw [h]
  · refine .inr ⟨?_, ht⟩
    have hw : Lo (runOp .consumeTrailingWhitespace) s fun _ _ => False := Wp.bind' (consumeTrailing_at hA hd) fun _ _ h => absurd h ht
    unfold Lo Wp at hw
    cases hr : (runOp .consumeTrailingWhitespace).run s with
    | ok _ _ => rw [hr] at hw; exact hw.elim
    | err e _ =>
      rw [hr] at hw
      exact ⟨e, malformed_of hw, rfl⟩

/-- the state at top level -/
theorem top_state (hN : 0 < N) (hd : Delivers sched bytes none) (hl : rs.length = pre.length) (hn : ∀ t l, Except.error (.unsupportedNumberValue t l) ∉ rs)
    (h : runReader N st sched (pre ++ [.currentPosition false]) = rs ++ [.ok (.position P)])
    (hm : Mode.init.after pre rs = some m) (hf : m.frames = []) (hs : m.started = true) (ha : m.str = false) :
    ∃ d s, d ≠ [] ∧ At st bytes True (.top d) s ∧ P = currentPosition s false ∧ ∀ tail, runReader N st sched (pre ++ tail) = rs ++ runOps tail s := by
  obtain ⟨m', s, hI, hm', hs', hp⟩ := behind_pre hN hd hl hn (by simp) h
  cases hm' m hm
  cases hI with
  | @«at» c _ hA =>
    obtain ⟨d, rfl⟩ := top_of_frames (c := c) (by rw [hf]; rfl)
    refine ⟨d, s, by simpa [Ctx.mode, Ctx.root] using hs, hA, ?_, hs'⟩
    rw [runOps_one] at hp
    have : (runOp (.currentPosition false)).run s = .ok (.position (currentPosition s false)) s := rfl
    rw [this] at hp
    simp only [List.cons.injEq, Except.ok.injEq, Out.position.injEq, and_true] at hp
    exact hp.symm
  | active => cases ha

/-- nothing peeked: the position is in front of the remaining input -/
theorem rest_n {c : Ctx} {pos : Pos} {r : Bytes} (h : InvN st bytes True c pos r) : r = bytes.drop (currentPosition (stp st c pos none r) false).dataPos := by
  rcases (h.good trivial).2 with ⟨h1, h2⟩ | ⟨rfl, _, t, _, h1, h2⟩
  · have : (currentPosition (stp st c pos none r) false).dataPos = c.bytes.length := by rw [h2]; simp [currentPosition, stp, posOf_eq]
    rw [this, h1, List.drop_left]
  · have : (currentPosition (stp st c pos none []) false).dataPos = bytes.length := by rw [h2]; simp [currentPosition, stp, posOf_eq]
    rw [this, List.drop_length]

/-- **C25** `consume_trailing_whitespace` succeeds if the remaining input is whitespace (and comments, if they are enabled), and fails otherwise. This holds behind every sequence of
calls which has consumed the top-level value, if multiple top-level values are not enabled. The remaining input is what is behind the current position.

(With `allowMultipleTopLevel`: `C25_trailing_partial` if nothing is peeked, `C25_peeked` otherwise.) -/
theorem C25_trailing_single (hN : 0 < N) (hd : Delivers sched bytes none) (hl : rs.length = pre.length) (hn : ∀ t l, Except.error (.unsupportedNumberValue t l) ∉ rs)
    (hst : st.allowMultipleTopLevel = false)
    (h : runReader N st sched (pre ++ [.currentPosition false]) = rs ++ [.ok (.position P)])
    (hm : Mode.init.after pre rs = some m) (hf : m.frames = []) (hs : m.started = true) (ha : m.str = false) :
    DecidedBy N st sched pre rs (bytes.drop P.dataPos) := by
  obtain ⟨d, s, hne, hA, rfl, hrun⟩ := top_state hN hd hl hn h hm hf hs ha
  have := decided_at hA hne (hrun _)
  cases hA with
  | n hX => rw [← rest_n hX]; exact this
  | p hP =>
    rcases canPeek_lead hP.lead d rfl with h | h
    · exact absurd h hne
    · rw [hst] at h; cases h

/-- The number of bytes which are consumed when the token at the begin of the given bytes is peeked: the brackets and quotes, and the literals, but nothing of a number -/
def peekedLen : Bytes → Nat
  | [] => 0
  | b :: _ => if b = 0x5B ∨ b = 0x7B ∨ b = 0x22 then 1 else if b = 0x74 ∨ b = 0x6E then 4 else if b = 0x66 then 5 else 0

theorem peekedLen_tok {p : Peeked} {r : Bytes} (hp : isValue p = true) (hf : Follow p r) : peekedLen (tokBytes p ++ r) = (tokBytes p).length := by
  cases p <;> first | rfl | cases hp | skip
  obtain ⟨b, t, rfl, hb⟩ := hf
  show peekedLen (b :: t) = 0
  unfold peekedLen
  dsimp only
  have key : ∀ x : UInt8, (x.toNat ≠ 0x2D ∧ (x.toNat < 0x30 ∨ 0x39 < x.toNat)) → b ≠ x := by
    rintro x hx rfl
    rcases hb with rfl | hb
    · exact hx.1 rfl
    · omega
  rw [if_neg (by
    rintro (h | h | h)
    · exact key _ (by decide) h
    · exact key _ (by decide) h
    · exact key _ (by decide) h), if_neg (by
    rintro (h | h)
    · exact key _ (by decide) h
    · exact key _ (by decide) h), if_neg (key _ (by decide))]

/-- **C25** Behind `peek` or `has_next` (which is possible only if multiple top-level values are enabled) the peeked token is not regarded as part of the remaining input: only
what is behind it decides whether `consume_trailing_whitespace` succeeds. If it is a number, then `consume_trailing_whitespace` fails. If `has_next` returned `false` it succeeds. -/
theorem C25_peeked (hN : 0 < N) (hd : Delivers sched bytes none) (hl : rs.length = pre.length) (hn : ∀ t l, Except.error (.unsupportedNumberValue t l) ∉ rs)
    {look : Op} {o : Out} (hlook : look = .peek ∨ look = .hasNext)
    (h : runReader N st sched (pre ++ [look, .currentPosition false]) = rs ++ [.ok o, .ok (.position P)])
    (hm : Mode.init.after pre rs = some m) (hf : m.frames = []) (hs : m.started = true) (ha : m.str = false) :
    DecidedBy N st sched (pre ++ [look]) (rs ++ [.ok o]) ((bytes.drop P.dataPos).drop (peekedLen (bytes.drop P.dataPos))) ∧
      (o = .bool false → bytes.drop P.dataPos = []) := by
  obtain ⟨m', s, hI, hm', hs', hp⟩ := behind_pre hN hd hl hn (by simp) h
  cases hm' m hm
  have hne : look ≠ .consumeTrailingWhitespace := by rcases hlook with rfl | rfl <;> nofun
  cases hI with
  | active => cases ha
  | @«at» c _ hA =>
    obtain ⟨d, rfl⟩ := top_of_frames (c := c) (by rw [hf]; rfl)
    have hdne : d ≠ [] := by simpa [Ctx.mode, Ctx.root] using hs
    have hw : Wp (runOp look) s (fun o s' => (∃ p l pos r, isValue p = true ∧ o ≠ .bool false ∧ s' = stp st (.top d) pos (some p) r ∧ InvP st bytes True (.top d) p l pos r) ∨
        (∃ pos, s' = stp st (.top d) pos none [] ∧ InvN st bytes True (.top d) pos [])) (fun _ _ => True) := by
      cases hal : (Ctx.top d).mode.allowed st.allowMultipleTopLevel look with
      | false => exact (not_allowed_panics hA.looks hal (by rcases hlook with rfl | rfl <;> nofun)).wp (E := fun _ _ => True) fun _ _ => trivial
      | true =>
        rcases hlook with rfl | rfl
        · obtain ⟨he, hc⟩ := canValue_iff.1 hal
          refine Wp.bind' ((peek_wp (K := fun _ => True) hA hc he).mono (fun _ _ h => h) fun _ _ _ => trivial) ?_
          rintro _ _ ⟨p, l, pos, r, hv, rfl, rfl, hP, _⟩
          exact Wp.pure (.inl ⟨p, l, pos, r, hv, nofun, rfl, hP⟩)
        · have hmt : st.allowMultipleTopLevel = true := by
            cases h : st.allowMultipleTopLevel with
            | true => rfl
            | false => rw [h] at hal; simp [Mode.allowed, Mode.canHasNext, Ctx.mode, Ctx.root, Ctx.frames] at hal
          refine Wp.bind' ((hasNext_top_wp (K := fun _ => True) hA hdne hmt).mono (fun _ _ h => h) fun _ _ _ => trivial) ?_
          rintro _ _ (⟨rfl, p, l, pos, r, hb, rfl, hP, _⟩ | ⟨rfl, _, _, pos, _, _, rfl, hX⟩)
          · exact Wp.pure (.inl ⟨p, l, pos, r, hP.lead.allows, nofun, rfl, hP⟩)
          · exact Wp.pure (.inr ⟨pos, rfl, hX⟩)
    unfold Wp at hw
    cases hr : (runOp look).run s with
    | err e s' => rw [runOps, hr] at hp; simp at hp
    | ok x s' =>
      rw [hr] at hw
      rw [runOps_cons_ok hr hne, runOps_one] at hp
      simp only [List.cons.injEq, Except.ok.injEq, and_true] at hp
      obtain ⟨rfl, hp⟩ := hp
      have hP : P = currentPosition s' false := by
        have : (runOp (.currentPosition false)).run s' = .ok (.position (currentPosition s' false)) s' := rfl
        rw [this] at hp
        simp only [Except.ok.injEq, Out.position.injEq] at hp
        exact hp.symm
      have hrun : runReader N st sched (pre ++ [look] ++ [.consumeTrailingWhitespace]) = rs ++ [.ok x] ++ runOps [.consumeTrailingWhitespace] s' := by
        rw [List.append_assoc, List.append_assoc, hs', List.singleton_append, runOps_cons_ok hr hne, List.singleton_append]
      subst hP
      rcases hw with ⟨p, l, pos, r, hv, hob, rfl, hP⟩ | ⟨pos, rfl, hX⟩
      · obtain ⟨_, h1, h2⟩ := hP.good trivial
        have hdrop : bytes.drop (currentPosition (stp st (.top d) pos (some p) r) false).dataPos = tokBytes p ++ r := by
          have : (currentPosition (stp st (.top d) pos (some p) r) false).dataPos = ((Ctx.top d).bytes ++ l.bytes).length := by rw [h2]; simp [currentPosition, stp, posOf_eq]
          rw [this, h1, ← List.append_assoc, List.drop_left]
        rw [hdrop, peekedLen_tok hv hP.follow, List.drop_left]
        exact ⟨decided_at (.p hP) hdne hrun, fun h => absurd h hob⟩
      · rw [← rest_n hX]
        exact ⟨decided_at (.n hX) hdne hrun, fun _ => rfl⟩

/-- a number is not whitespace: if it is peeked, then `consume_trailing_whitespace` fails -/
example : peekedLen [0x31, 0x20] = 0 ∧ ¬ OnlyTrail Settings.default [0x31, 0x20] := by
  refine ⟨rfl, ?_⟩
  rintro ⟨⟨w, t⟩, ⟨h1, h2⟩, h⟩
  cases w with
  | nil => cases t <;> simp [TrailWs.bytes, Ws.bytes] at h
  | cons i w =>
    have hi := h1 i (List.mem_cons_self ..)
    cases i with
    | space b =>
      simp [TrailWs.bytes, Ws.bytes, WsItem.bytes] at h
      rcases hi with rfl | rfl | rfl | rfl <;> exact absurd h.1 (by decide)
    | block cs => simp [TrailWs.bytes, Ws.bytes, WsItem.bytes] at h
    | line cs nl => simp [TrailWs.bytes, Ws.bytes, WsItem.bytes] at h

/-- `C25_trailing_single`: the last calls before are not consuming ones (`next_bool` fails) -/
example : runReader 3 Settings.default (single [91, 93, 32, 120]) ([.beginArray, .nextBool, .endArray, .currentPosition true] ++ [.currentPosition false]) =
      [.ok .unit, .error (.unexpectedStructure (.fewerElementsThanExpected) ⟨some [.arrayItem 0], 0, 1, 1⟩), .ok .unit, .ok (.position ⟨some [], 0, 2, 2⟩)] ++ [.ok (.position ⟨none, 0, 2, 2⟩)] ∧
    runReader 3 Settings.default (single [91, 93, 32, 120]) ([.beginArray, .nextBool, .endArray, .currentPosition true] ++ [.consumeTrailingWhitespace]) =
      [.ok .unit, .error (.unexpectedStructure (.fewerElementsThanExpected) ⟨some [.arrayItem 0], 0, 1, 1⟩), .ok .unit, .ok (.position ⟨some [], 0, 2, 2⟩)] ++
        [.error (.syntax .trailingData ⟨some [], 0, 3, 3⟩)] ∧
    Mode.init.after [.beginArray, .nextBool, .endArray, .currentPosition true]
      [.ok .unit, .error (.unexpectedStructure (.fewerElementsThanExpected) ⟨some [.arrayItem 0], 0, 1, 1⟩), .ok .unit, .ok (.position ⟨some [], 0, 2, 2⟩)] = some ⟨[], true, false⟩ := by
  decide +kernel

/-- `C25_peeked`: the array behind the number is peeked and not noticed, although it is not even ended -/
example : runReader 3 { Settings.default with allowMultipleTopLevel := true } (single [49, 32, 91]) ([.nextNumberAsStr] ++ [.hasNext, .currentPosition false]) =
      [.ok (.text ['1'])] ++ [.ok (.bool true), .ok (.position ⟨none, 0, 2, 2⟩)] ∧
    runReader 3 { Settings.default with allowMultipleTopLevel := true } (single [49, 32, 91]) ([.nextNumberAsStr, .hasNext] ++ [.consumeTrailingWhitespace]) =
      [.ok (.text ['1']), .ok (.bool true)] ++ [.ok .unit] ∧
    Mode.init.after [.nextNumberAsStr] [.ok (.text ['1'])] = some ⟨[], true, false⟩ := by
  decide +kernel

end Verif.Props
