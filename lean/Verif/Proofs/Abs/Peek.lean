import Verif.Proofs.Abs.Ctx
/-! # Peeking -/

namespace Verif.Abs
open Reader Utf8 Json

theorem Pos.over_nil (p : Pos) : p.over [] = p := rfl

theorem Pos.over_over (p : Pos) {a b : Bytes} (h : NoSplit a b) : (p.over a).over b = p.over (a ++ b) :=
  (posRun_fst_append p h).symm

theorem posOf_over {a b : Bytes} (h : NoSplit a b) : (posOf a).over b = posOf (a ++ b) := Pos.over_over ⟨0, 0, 0⟩ h

theorem Pos.over_plain (p : Pos) {bs : Bytes} (h : Plain bs) : p.over bs = ⟨p.line, p.col + bs.length, p.byte + bs.length⟩ := by
  unfold Pos.over
  rw [posRun_plain _ h]

def isEnd (p : Peeked) : Bool := p == .arrayEnd || p == .objectEnd

/-- `can_have_comma` -/
def Ctx.canComma : Ctx → Bool
  | .arr _ _ done => !done.isEmpty
  | .obj _ _ done => !done.isEmpty
  | _ => false

theorem canComma_stp (st : Settings) (c : Ctx) (pos : Pos) (pk : Option Peeked) (r : Bytes) :
    (!(stp st c pos pk r).isEmpty && (isInArray (stp st c pos pk r) || (stp st c pos pk r).expectsMemberName)) = c.canComma := by
  cases c <;> simp [isInArray, stp, Ctx.stack, Ctx.emn, Ctx.isEmpty, Ctx.canComma]

theorem finishPeek_complete {st : Settings} {c : Ctx} {pos : Pos} {p : Peeked} {r : Bytes} {chc : Bool} {comma : Option (Nat × Nat × Nat)}
    (h1 : isEnd p = true → comma = none ∨ st.allowTrailingComma = true) (h2 : isEnd p = false → chc = true → comma ≠ none) :
    (finishPeek chc comma (p, advOf p)).run (clState st c pos p r) = .ok (some p) (stp st c pos (some p) r) := by
  have hset : (do (if advOf p then skipPeekedByte else pure ()); M.modify (fun s => { s with peeked := some p }); pure (some p) : R AbsSrc (Option Peeked)).run
      (clState st c pos p r) = .ok (some p) (stp st c pos (some p) r) := by
    cases p <;> rfl
  unfold finishPeek
  rw [run_get]
  dsimp only
  cases he : isEnd p with
  | true =>
    rw [if_pos (by exact he)]
    rcases comma with _ | ⟨a, b, d⟩
    · exact hset
    · dsimp only
      rw [if_neg (by
        rcases h1 he with h | h
        · cases h
        · show ¬ (!st.allowTrailingComma) = true
          rw [h]; decide)]
      exact hset
  | false =>
    rw [if_neg (by show ¬ isEnd p = true; rw [he]; decide), if_neg]
    · exact hset
    · cases hc : chc with
      | false => exact Bool.false_ne_true
      | true =>
        cases comma with
        | none => exact absurd rfl (h2 he hc)
        | some x => exact Bool.false_ne_true

theorem finishPeek_lo {st : Settings} {c : Ctx} {pos : Pos} {p : Peeked} {r : Bytes} {chc : Bool} {comma : Option (Nat × Nat × Nat)} {Q : Option Peeked → St → Prop}
    (hQ : (isEnd p = true → comma = none ∨ st.allowTrailingComma = true) → (isEnd p = false → chc = true → comma ≠ none) → Q (some p) (stp st c pos (some p) r)) :
    Lo (finishPeek chc comma (p, advOf p)) (clState st c pos p r) Q := by
  by_cases h1 : isEnd p = true → comma = none ∨ st.allowTrailingComma = true
  · by_cases h2 : isEnd p = false → chc = true → comma ≠ none
    · exact Wp.of_ok (finishPeek_complete h1 h2) (hQ h1 h2)
    · have h3 : isEnd p = false := by
        cases h : isEnd p with
        | false => rfl
        | true => exact absurd (fun h' => absurd (h.symm.trans h') (by decide)) h2
      have h4 : chc = true := by
        cases h : chc with
        | true => rfl
        | false => exact absurd (fun _ h' => absurd (h.symm.trans h') (by decide)) h2
      have h5 : comma = none := by
        cases h : comma with
        | none => rfl
        | some x => exact absurd (fun _ _ => by rw [h]; exact nofun) h2
      subst h4 h5
      refine Wp.of_err (e := .syntax .missingComma (loc (clState st c pos p r))) (s' := clState st c pos p r) ?_ trivial
      unfold finishPeek
      rw [run_get]
      dsimp only
      rw [if_neg (by show ¬ isEnd p = true; rw [h3]; decide)]
      rfl
  · have h3 : isEnd p = true := by
      cases h : isEnd p with
      | true => rfl
      | false => exact absurd (fun h' => absurd (h.symm.trans h') (by decide)) h1
    obtain ⟨x, hx⟩ : ∃ x, comma = some x := by
      cases h : comma with
      | none => exact absurd (fun _ => .inl h) h1
      | some x => exact ⟨x, rfl⟩
    obtain ⟨a, b, d⟩ := x
    subst hx
    unfold finishPeek
    refine Wp.get ?_
    dsimp only
    refine Wp.ite (fun _ => ?_) fun h => absurd h3 h
    refine Wp.ite (fun _ => Wp.of_err rfl trivial) fun h => absurd ?_ h1
    intro _
    have h : ¬ (!st.allowTrailingComma) = true := h
    exact .inr (by simpa using h)

/-- bytes in front of the token, behind the colon of a member -/
def TLead (st : Settings) (c : Ctx) (p : Peeked) : Sep → Prop
  | .plain w => w.Ok st.allowComments ∧ (isEnd p = true ∨ c.canComma = false)
  | .comma w1 w2 => c.canComma = true ∧ w1.Ok st.allowComments ∧ w2.Ok st.allowComments ∧ (isEnd p = true → st.allowTrailingComma = true)

theorem plain_comma : Plain [0x2C] := plain_cons (by decide) plain_nil
theorem plain_colon : Plain [0x3A] := plain_cons (by decide) plain_nil

theorem tokStart_comma : TokStart 0x2C := by unfold TokStart isSp; decide
theorem tokStart_colon : TokStart 0x3A := by unfold TokStart isSp; decide

/-- whitespace, a comma or colon, whitespace -/
theorem over_sep (pos : Pos) (w1 w2 : Bytes) {b : UInt8} (hb : Plain [b]) : ((pos.over w1).over [b]).over w2 = pos.over (w1 ++ b :: w2) := by
  rw [Pos.over_over _ hb.noBreak.right, Pos.over_over]
  · simp
  · exact noSplit_append (by simp) hb.noBreak.left

theorem peekToken_complete {st : Settings} {c : Ctx} {pos : Pos} {p : Peeked} {l : Sep} {r : Bytes} (hl : TLead st c p l) (ha : c.Allows p) (hf : Follow p r) :
    peekToken.run (stp st c pos none (l.bytes ++ (tokBytes p ++ r))) = .ok (some p) (stp st c (pos.over l.bytes) (some p) r) := by
  obtain ⟨b, t, hb, hbs, hbc⟩ := tok_head hf
  unfold peekToken
  cases l with
  | plain w =>
    obtain ⟨hw, hc⟩ := hl
    rw [M.bind_ok (skipWhitespace_tok (w := w) (b := b) (t := t) rfl hw hbs (by rw [← hb]; rfl)), mv_stp]
    dsimp only
    rw [run_get, canComma_stp, if_neg (beq_ne hbc), M.bind_ok (classify_complete ha hf hb)]
    refine finishPeek_complete (fun _ => .inl rfl) fun h1 h2 => ?_
    rcases hc with h | h
    · exact absurd (h.symm.trans h1) (by decide)
    · exact absurd (h.symm.trans h2) (by decide)
  | comma w1 w2 =>
    obtain ⟨hc, hw1, hw2, ht⟩ := hl
    rw [M.bind_ok (skipWhitespace_tok (w := w1) (b := 0x2C) (t := w2.bytes ++ b :: t) rfl hw1 tokStart_comma (by rw [← hb]; simp [Sep.bytes, stp])), mv_stp]
    dsimp only
    rw [run_get, canComma_stp, if_pos (by decide), hc, if_neg (by decide), M.bind_ok (skipPeekedByte_cons (b := 0x2C) (t := w2.bytes ++ b :: t) rfl),
      M.bind_ok (advance_plain (n := 1) _ plain_comma rfl), setRest_stp, mv_stp,
      M.bind_ok (skipWhitespaceNoEof_tok (w := w2) (b := b) (t := t) rfl hw2 hbs rfl), mv_stp, over_sep _ _ _ plain_comma, M.bind_ok (classify_complete ha hf hb)]
    exact finishPeek_complete (fun h => .inr (ht h)) fun _ _ => nofun

theorem peekToken_lo {st : Settings} {c : Ctx} {pos : Pos} {rest : Bytes} : Lo peekToken (stp st c pos none rest) (fun o s' =>
    (∃ p l r, TLead st c p l ∧ c.Allows p ∧ Follow p r ∧ rest = l.bytes ++ (tokBytes p ++ r) ∧ o = some p ∧ s' = stp st c (pos.over l.bytes) (some p) r) ∨
    (∃ w : TrailWs, w.Ok st.allowComments ∧ rest = w.bytes ∧ o = none ∧ s' = stp st c (pos.over w.bytes) none [])) := by
  unfold peekToken
  refine Wp.bind' (skipWhitespace_lo rfl) ?_
  rintro _ _ (⟨w, b, t, hw, hbs, rfl, hr, rfl⟩ | ⟨_, rfl, w, hw, hr, rfl⟩)
  · rw [mv_stp]
    dsimp only
    refine Wp.get ?_
    rw [canComma_stp]
    refine Wp.ite (fun hb => ?_) fun hb => ?_
    · have hb := eq_of_beq hb
      subst hb
      refine Wp.ite (fun _ => Lo.syntaxErr) fun hc => ?_
      refine Wp.bind_ok (skipPeekedByte_cons (b := 0x2C) (t := t) rfl) ?_
      refine Wp.bind_ok (advance_plain _ plain_comma rfl) ?_
      rw [setRest_stp, mv_stp]
      refine Wp.bind' (skipWhitespaceNoEof_lo rfl) ?_
      rintro b _ ⟨w2, t', hw2, hbs2, hr2, rfl⟩
      rw [mv_stp, over_sep _ _ _ plain_comma]
      refine Wp.bind' classify_lo ?_
      rintro ⟨p, adv⟩ _ ⟨r, ha, hf, hb, (rfl : adv = advOf p), rfl⟩
      refine finishPeek_lo fun h1 h2 => .inl ⟨p, .comma w w2, r, ⟨by simpa using hc, hw, hw2, fun h => ?_⟩, ha, hf, ?_, rfl, rfl⟩
      · rcases h1 h with h | h
        · cases h
        · exact h
      · have hr : rest = _ := hr
        have hr2 : t = _ := hr2
        rw [hr, hr2]
        dsimp only at hb
        rw [hb]
        simp [Sep.bytes]
    · refine Wp.bind' classify_lo ?_
      rintro ⟨p, adv⟩ _ ⟨r, ha, hf, hb, (rfl : adv = advOf p), rfl⟩
      refine finishPeek_lo fun h1 h2 => .inl ⟨p, .plain w, r, ⟨hw, ?_⟩, ha, hf, ?_, rfl, rfl⟩
      · cases he : isEnd p with
        | true => exact .inl rfl
        | false =>
          cases hc : c.canComma with
          | true => exact absurd rfl (h2 he hc)
          | false => exact .inr rfl
      · dsimp only at hb
        rw [hb]; exact hr
  · exact Wp.pure (.inr ⟨w, hw, hr, rfl, rfl⟩)

theorem afterName_complete {st : Settings} {c : Ctx} {pos : Pos} {w : Ws} {r : Bytes} (hw : w.Ok st.allowComments) :
    afterName.run (stp st c pos none (w.bytes ++ 0x3A :: r)) = .ok () (stp st c (pos.over (w.bytes ++ [0x3A])) none r) := by
  unfold afterName
  rw [M.bind_ok (skipWhitespaceNoEof_tok (w := w) (b := 0x3A) (t := r) rfl hw tokStart_colon rfl), mv_stp, if_pos (by decide),
    M.bind_ok (skipPeekedByte_cons (b := 0x3A) (t := r) rfl)]
  refine (advance_plain _ plain_colon rfl).trans ?_
  rw [setRest_stp, mv_stp, Pos.over_over _ plain_colon.noBreak.right]
  rfl

theorem afterName_lo {st : Settings} {c : Ctx} {pos : Pos} {rest : Bytes} : Lo afterName (stp st c pos none rest) (fun _ s' =>
    ∃ (w : Ws) (r : Bytes), w.Ok st.allowComments ∧ rest = w.bytes ++ 0x3A :: r ∧ s' = stp st c (pos.over (w.bytes ++ [0x3A])) none r) := by
  unfold afterName
  refine Wp.bind' (skipWhitespaceNoEof_lo rfl) ?_
  rintro b _ ⟨w, t, hw, hb, hr, rfl⟩
  refine Wp.ite (fun hb => ?_) fun _ => Lo.syntaxErr
  have hb := eq_of_beq hb
  subst hb
  refine Wp.bind_ok (skipPeekedByte_cons (b := 0x3A) (t := t) rfl) ?_
  refine Wp.of_ok (advance_plain _ plain_colon rfl) ⟨w, t, hw, hr, ?_⟩
  rw [mv_stp, setRest_stp, mv_stp, Pos.over_over _ plain_colon.noBreak.right]
  rfl

/-! ## `peek_internal_optional` -/

/-- Peeking is possible: there is no second top-level value unless enabled -/
def CanPeek (st : Settings) (c : Ctx) : Prop := ∀ done, c = .top done → done = [] ∨ st.allowMultipleTopLevel = true

/-- bytes which are skipped when the input ends -/
def EofLead (st : Settings) (c : Ctx) (bs : Bytes) : Prop := match c with
  | .val _ _ _ _ _ => ∃ (w : Ws) (t : TrailWs), w.Ok st.allowComments ∧ t.Ok st.allowComments ∧ bs = w.bytes ++ 0x3A :: t.bytes
  | _ => ∃ t : TrailWs, t.Ok st.allowComments ∧ bs = t.bytes

/-- the last consumed value is a number or literal -/
def Ctx.lastBare : Ctx → Bool
  | .top done => bareLast done
  | .arr _ _ done => match done.getLast? with
    | some x => x.2.isBare
    | none => false
  | .obj _ _ done => match done.getLast? with
    | some x => x.v.isBare
    | none => false
  | .val _ _ _ _ _ => false

/-- behind a number or literal -/
def BareInv (c : Ctx) (rest : Bytes) : Prop := c.lastBare = true → SepOk rest

theorem pio_top {st : Settings} {c : Ctx} {pos : Pos} {r : Bytes} (hp : CanPeek st c) (hv : ∀ u l d s n, c ≠ .val u l d s n) :
    peekInternalOptional.run (stp st c pos none r) = peekToken.run (stp st c pos none r) := by
  unfold peekInternalOptional
  rw [run_get, if_neg (by exact Bool.false_ne_true), if_neg (by exact Bool.false_ne_true), if_neg, if_neg]
  · cases c <;> first | exact Bool.false_ne_true | skip
    exact absurd rfl (hv _ _ _ _ _)
  · cases c <;> first | exact Bool.false_ne_true | skip
    · rcases hp _ rfl with rfl | h
      · exact Bool.false_ne_true
      · show ¬ (_ && !st.allowMultipleTopLevel) = true
        rw [h]; simp
    all_goals (unfold isBehindTopLevel; simp [stp, Ctx.stack])

theorem pio_val {st : Settings} {u : Ctx} {l : Lead} {d : List Mem} {s : Sep} {n : Str} {pos : Pos} {r : Bytes} :
    peekInternalOptional.run (stp st (.val u l d s n) pos none r) = (afterName >>= fun _ => peekToken).run (stp st (.val u l d s n) pos none r) := by
  unfold peekInternalOptional
  rw [run_get, if_neg (by exact Bool.false_ne_true), if_neg (by exact Bool.false_ne_true), if_neg (by unfold isBehindTopLevel; simp [stp, Ctx.stack])]
  rfl

theorem pio_complete {st : Settings} {c : Ctx} {pos : Pos} {p : Peeked} {l : Lead} {r : Bytes} (hl : c.LeadFor st p l) (hf : Follow p r) :
    peekInternalOptional.run (stp st c pos none (l.bytes ++ (tokBytes p ++ r))) = .ok (some p) (stp st c (pos.over l.bytes) (some p) r) := by
  have ha := hl.allows
  cases c with
  | top done =>
    cases l with
    | ws w =>
      obtain ⟨h1, h2, h3, h4⟩ := hl
      rw [pio_top (by rintro _ ⟨⟩; exact h3) (by rintro _ _ _ _ _ ⟨⟩)]
      exact peekToken_complete (l := .plain w) ⟨h2, .inr rfl⟩ ha hf
    | sep => exact hl.elim
    | colon => exact hl.elim
  | arr up le done =>
    cases l with
    | sep s =>
      rw [pio_top (by rintro _ ⟨⟩) (by rintro _ _ _ _ _ ⟨⟩)]
      refine peekToken_complete (l := s) ?_ ha hf
      rcases hl with ⟨rfl, hl⟩ | ⟨hp, hl⟩
      · cases s with
        | plain w => exact ⟨hl, .inl rfl⟩
        | comma w1 w2 =>
          have hl : done.isEmpty = false ∧ _ := hl
          exact ⟨show (!done.isEmpty) = true by rw [hl.1]; rfl, hl.2.2.1, hl.2.2.2, fun _ => hl.2.1⟩
      · have he : isEnd p = false := by cases p <;> first | rfl | exact absurd hp (by decide)
        cases s with
        | plain w => exact ⟨hl.2, .inr (show (!done.isEmpty) = false by rw [hl.1]; rfl)⟩
        | comma w1 w2 => exact ⟨show (!done.isEmpty) = true by rw [hl.1]; rfl, hl.2.1, hl.2.2, fun h => absurd (he.symm.trans h) (by decide)⟩
    | ws => exact hl.elim
    | colon => exact hl.elim
  | obj up le done =>
    cases l with
    | sep s =>
      rw [pio_top (by rintro _ ⟨⟩) (by rintro _ _ _ _ _ ⟨⟩)]
      refine peekToken_complete (l := s) ?_ ha hf
      rcases hl with ⟨rfl, hl⟩ | ⟨rfl, hl⟩
      · cases s with
        | plain w => exact ⟨hl, .inl rfl⟩
        | comma w1 w2 =>
          have hl : done.isEmpty = false ∧ _ := hl
          exact ⟨show (!done.isEmpty) = true by rw [hl.1]; rfl, hl.2.2.1, hl.2.2.2, fun _ => hl.2.1⟩
      · cases s with
        | plain w => exact ⟨hl.2, .inr (show (!done.isEmpty) = false by rw [hl.1]; rfl)⟩
        | comma w1 w2 => exact ⟨show (!done.isEmpty) = true by rw [hl.1]; rfl, hl.2.1, hl.2.2, fun h => absurd h (by decide)⟩
    | ws => exact hl.elim
    | colon => exact hl.elim
  | val up le done s n =>
    cases l with
    | colon w1 w2 =>
      obtain ⟨h1, h2, h3⟩ := hl
      rw [pio_val]
      show (afterName >>= _).run (stp st _ _ none ((w1.bytes ++ 0x3A :: w2.bytes) ++ (tokBytes p ++ r))) = _
      rw [List.append_assoc, List.cons_append, M.bind_ok (afterName_complete h2)]
      refine (peekToken_complete (l := .plain w2) ⟨h3, .inr rfl⟩ ha hf).trans ?_
      rw [Pos.over_over]
      · simp [Lead.bytes, Sep.bytes]
      · exact noSplit_append (by simp) plain_colon.noBreak.left
    | ws => exact hl.elim
    | sep => exact hl.elim

theorem pio_eof {st : Settings} {c : Ctx} {pos : Pos} {bs : Bytes} (hp : CanPeek st c) (h : EofLead st c bs) :
    peekInternalOptional.run (stp st c pos none bs) = .ok none (stp st c (pos.over bs) none []) := by
  have key : ∀ {pos : Pos} {t : TrailWs}, t.Ok st.allowComments → peekToken.run (stp st c pos none t.bytes) = .ok none (stp st c (pos.over t.bytes) none []) := by
    intro pos t ht
    unfold peekToken
    rw [M.bind_ok (skipWhitespace_eof rfl ht rfl)]
    rfl
  cases c with
  | val u l d s n =>
    obtain ⟨w, t, hw, ht, rfl⟩ := h
    rw [pio_val, M.bind_ok (afterName_complete hw), key ht, Pos.over_over]
    · simp
    · exact noSplit_append (by simp) plain_colon.noBreak.left
  | top | arr | obj =>
    obtain ⟨t, ht, rfl⟩ := h
    rw [pio_top hp (by rintro _ _ _ _ _ ⟨⟩), key ht]

theorem Sep.ok_of_tlead {st : Settings} {c : Ctx} {p : Peeked} {l : Sep} {e : Bool} (h : TLead st c p l) (hp : isEnd p = false) (he : c.canComma = !e) :
    l.Ok (cfgOf st) e := by
  cases l with
  | plain w =>
    refine ⟨?_, h.1⟩
    rcases h.2 with h | h
    · exact absurd (h.symm.trans hp) (by decide)
    · rw [h] at he; simpa using he.symm
  | comma w1 w2 =>
    have h1 := h.1
    rw [he] at h1
    exact ⟨by simpa using h1, h.2.1, h.2.2.1⟩

theorem Sep.okEnd_of_tlead {st : Settings} {c : Ctx} {p : Peeked} {l : Sep} {e : Bool} (h : TLead st c p l) (hp : isEnd p = true) (he : c.canComma = !e) :
    l.OkEnd (cfgOf st) e := by
  cases l with
  | plain w => exact h.1
  | comma w1 w2 =>
    have h1 := h.1
    rw [he] at h1
    exact ⟨by simpa using h1, h.2.2.2 hp, h.2.1, h.2.2.1⟩

theorem isEnd_of_value {p : Peeked} (h : isValue p = true) : isEnd p = false := by
  cases p <;> first | rfl | exact absurd h (by decide)

theorem sepOk_not_value {p : Peeked} {r : Bytes} (hp : isValue p = true) (hf : Follow p r) : ¬ SepOk (tokBytes p ++ r) := by
  intro h
  cases p <;> first | exact absurd hp (by decide) | exact absurd (h _ rfl) (by decide) | skip
  obtain ⟨b, t, rfl, hn⟩ := hf
  have := h b rfl
  revert this
  revert hn
  unfold isNumStart
  refine forallByte (P := fun b => (b = 0x2D ∨ (0x30 ≤ b.toNat ∧ b.toNat ≤ 0x39)) → isValueSeparator b = true → False) ?_ b
  decide +kernel

theorem pio_lo {st : Settings} {c : Ctx} {pos : Pos} {rest : Bytes} (hp : CanPeek st c) (hb : BareInv c rest) : Lo peekInternalOptional (stp st c pos none rest) (fun o s' =>
    (∃ p l r, c.LeadFor st p l ∧ Follow p r ∧ rest = l.bytes ++ (tokBytes p ++ r) ∧ o = some p ∧ s' = stp st c (pos.over l.bytes) (some p) r) ∨
    (EofLead st c rest ∧ o = none ∧ s' = stp st c (pos.over rest) none [])) := by
  cases c with
  | top done =>
    refine Wp.congr (pio_top hp (by rintro _ _ _ _ _ ⟨⟩)) (peekToken_lo.post ?_)
    rintro _ _ (⟨p, l, r, hl, ha, hf, hr, rfl, rfl⟩ | ⟨w, hw, hr, rfl, rfl⟩)
    · cases l with
      | plain w =>
        refine .inl ⟨p, .ws w, r, ⟨ha, hl.1, hp _ rfl, fun h hw => ?_⟩, hf, hr, rfl, rfl⟩
        subst hw
        have hs := hb h
        rw [hr] at hs
        exact sepOk_not_value ha hf hs
      | comma => exact absurd hl.1 Bool.false_ne_true
    · exact .inr ⟨⟨w, hw, hr⟩, rfl, by rw [hr]⟩
  | arr up le done =>
    refine Wp.congr (pio_top hp (by rintro _ _ _ _ _ ⟨⟩)) (peekToken_lo.post ?_)
    rintro _ _ (⟨p, l, r, hl, ha, hf, hr, rfl, rfl⟩ | ⟨w, hw, hr, rfl, rfl⟩)
    · refine .inl ⟨p, .sep l, r, ?_, hf, hr, rfl, rfl⟩
      rcases ha with ha | rfl
      · exact .inr ⟨ha, Sep.ok_of_tlead hl (isEnd_of_value ha) rfl⟩
      · exact .inl ⟨rfl, Sep.okEnd_of_tlead hl rfl rfl⟩
    · exact .inr ⟨⟨w, hw, hr⟩, rfl, by rw [hr]⟩
  | obj up le done =>
    refine Wp.congr (pio_top hp (by rintro _ _ _ _ _ ⟨⟩)) (peekToken_lo.post ?_)
    rintro _ _ (⟨p, l, r, hl, ha, hf, hr, rfl, rfl⟩ | ⟨w, hw, hr, rfl, rfl⟩)
    · refine .inl ⟨p, .sep l, r, ?_, hf, hr, rfl, rfl⟩
      rcases ha with rfl | rfl
      · exact .inr ⟨rfl, Sep.ok_of_tlead hl rfl rfl⟩
      · exact .inl ⟨rfl, Sep.okEnd_of_tlead hl rfl rfl⟩
    · exact .inr ⟨⟨w, hw, hr⟩, rfl, by rw [hr]⟩
  | val up le done s n =>
    refine Wp.congr pio_val (Wp.bind' afterName_lo ?_)
    rintro _ _ ⟨w1, r1, hw1, hr1, rfl⟩
    refine peekToken_lo.post ?_
    have hns : ∀ b, NoSplit (w1.bytes ++ [0x3A]) b := fun b => noSplit_append (by simp) plain_colon.noBreak.left
    rintro _ _ (⟨p, l, r, hl, ha, hf, hr, rfl, rfl⟩ | ⟨w, hw, hr, rfl, rfl⟩)
    · cases l with
      | plain w =>
        refine .inl ⟨p, .colon w1 w, r, ⟨ha, hw1, hl.1⟩, hf, ?_, rfl, ?_⟩
        · rw [hr1, hr]; simp [Lead.bytes, Sep.bytes]
        · rw [Pos.over_over _ (hns _)]; simp [Lead.bytes, Sep.bytes]
      | comma => exact absurd hl.1 Bool.false_ne_true
    · refine .inr ⟨⟨w1, w, hw1, hw, by rw [hr1, hr]⟩, rfl, ?_⟩
      rw [Pos.over_over _ (hns _), hr1, hr]; simp

end Verif.Abs
