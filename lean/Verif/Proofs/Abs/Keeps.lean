import Verif.Proofs.Abs.Fatal
/-! # Peeking on arbitrary inputs -/

namespace Verif.Abs
open Reader

/-- only bytes have been consumed -/
structure Kept (s s' : St) : Prop where
  peeked : s'.peeked = s.peeked
  isEmpty : s'.isEmpty = s.isEmpty
  emn : s'.expectsMemberName = s.expectsMemberName
  stack : s'.stack = s.stack
  sra : s'.stringReaderActive = s.stringReaderActive
  settings : s'.settings = s.settings
  rest : s'.src.rest.length ≤ s.src.rest.length

theorem Kept.refl (s : St) : Kept s s := ⟨rfl, rfl, rfl, rfl, rfl, rfl, Nat.le_refl _⟩
theorem Kept.trans {a b c : St} (h : Kept a b) (h' : Kept b c) : Kept a c :=
  ⟨h'.1.trans h.1, h'.2.trans h.2, h'.3.trans h.3, h'.4.trans h.4, h'.5.trans h.5, h'.6.trans h.6, Nat.le_trans h'.7 h.7⟩

/-- only consumes bytes -/
def Keeps {α : Type} (m : R AbsSrc α) : Prop := ∀ s a s', m.run s = .ok a s' → Kept s s'

namespace Keeps
variable {α β : Type} {m : R AbsSrc α} {f : α → R AbsSrc β}

theorem bind (h : Keeps m) (hf : ∀ a, Keeps (f a)) : Keeps (m >>= f) := by
  intro s a s' hr
  rw [M.run_bind] at hr
  cases hm : m.run s with
  | ok a s1 => rw [hm] at hr; exact (h _ _ _ hm).trans (hf a _ _ _ hr)
  | err e1 s1 => rw [hm] at hr; cases hr

theorem pure (a : α) : Keeps (pure a : R AbsSrc α) := fun _ _ _ h => by cases h; exact .refl _
theorem get : Keeps (M.get : R AbsSrc St) := fun _ _ _ h => by cases h; exact .refl _
theorem fail (e : RErr) : Keeps (M.fail e : R AbsSrc α) := fun _ _ _ h => by cases h
theorem syn {k : SyntaxKind} : Keeps (syntaxErr k : R AbsSrc α) := fun _ _ _ h => by cases h
theorem io {e : IoErr} : Keeps (ioErr e : R AbsSrc α) := fun _ _ _ h => by cases h
theorem usage {p : UsagePanic} : Keeps (usagePanic p : R AbsSrc α) := fun _ _ _ h => by cases h
theorem internal {p : InternalPanic} : Keeps (internalPanic p : R AbsSrc α) := fun _ _ _ h => by cases h
theorem unwrap {o : Option α} : Keeps (Reader.unwrap o : R AbsSrc α) := by
  cases o
  · exact internal
  · exact pure _
theorem adv {a b : Nat} : Keeps (advance a b : R AbsSrc Unit) := fun _ _ _ h => by cases h; exact ⟨rfl, rfl, rfl, rfl, rfl, rfl, Nat.le_refl _⟩
theorem ite {c : Prop} [Decidable c] {m1 m2 : R AbsSrc α} (h1 : Keeps m1) (h2 : Keeps m2) : Keeps (if c then m1 else m2) := by
  split
  · exact h1
  · exact h2
end Keeps

/-- combine the rules -/
macro "keeps1" : tactic => `(tactic| first
  | assumption | (with_reducible exact Keeps.pure _) | (with_reducible exact Keeps.get) | (with_reducible exact Keeps.syn)
  | (with_reducible exact Keeps.io) | (with_reducible exact Keeps.usage) | (with_reducible exact Keeps.internal) | (with_reducible exact Keeps.unwrap) | (with_reducible exact Keeps.adv)
  | (with_reducible exact Keeps.fail _)
  | (with_reducible refine Keeps.bind ?_ fun _ => ?_) | (with_reducible refine Keeps.ite ?_ ?_) | split | (show Keeps _; dsimp only))

macro "keeps" : tactic => `(tactic| repeat (any_goals keeps1))

theorem peekByte_ok {s s' : St} {o : Option UInt8} (h : peekByte.run s = .ok o s') : s' = s ∧ o = s.src.rest.head? ∧ (o = none → s.src.term = none) := by
  obtain ⟨⟨r, t, acc⟩, pk, e, mn, stk, sa, l, col, b, pa, se⟩ := s
  cases r with
  | cons x r => cases h; exact ⟨rfl, rfl, nofun⟩
  | nil =>
    cases t with
    | none => cases h; exact ⟨rfl, rfl, fun _ => rfl⟩
    | some c => cases h

theorem keeps_peekByte : Keeps (peekByte : R AbsSrc _) := fun _ _ _ h => (peekByte_ok h).1 ▸ .refl _

theorem keeps_skipPeekedByte : Keeps (skipPeekedByte : R AbsSrc _) := by
  intro s a s' h
  obtain ⟨⟨r, t, acc⟩, pk, e, mn, stk, sa, l, col, b, pa, se⟩ := s
  cases r with
  | cons x r => cases h; exact ⟨rfl, rfl, rfl, rfl, rfl, rfl, Nat.le_succ _⟩
  | nil => cases h

theorem keeps_readByte {k : SyntaxKind} : Keeps (readByte k : R AbsSrc _) := by
  have := keeps_peekByte; have := keeps_skipPeekedByte
  unfold readByte; keeps

theorem keeps_multibyte {b : UInt8} : Keeps (readUtf8Multibyte readByte b : R AbsSrc _) := by
  have h1 := @keeps_readByte .incompleteDocument
  have h2 : ∀ o bs, Keeps (checkValid o bs : R AbsSrc _) := by intro o bs; unfold checkValid; keeps
  unfold readUtf8Multibyte; keeps <;> exact h2 _ _

theorem keeps_skipToByte {b : UInt8} {cr : Bool} : Keeps (skipToByte b cr : R AbsSrc _) := by
  have h := @keeps_multibyte b
  have hm : ∀ (g : St → St), (∀ s, Kept s (g s)) → Keeps (M.modify g : R AbsSrc Unit) := fun g hg s _ _ h => by cases h; exact hg s
  unfold skipToByte; keeps
  all_goals exact hm _ fun s => ⟨rfl, rfl, rfl, rfl, rfl, rfl, Nat.le_refl _⟩

theorem keeps_skipToLoop {stop : UInt8 → Bool} {k : Option SyntaxKind} : ∀ {n : Nat} {cr : Bool}, Keeps (skipToLoop stop k n cr : R AbsSrc _)
  | 0, _ => Keeps.fail _
  | n + 1, cr => by
    have h1 := keeps_peekByte; have h2 := keeps_skipPeekedByte
    unfold skipToLoop; keeps
    · exact keeps_skipToByte
    · exact keeps_skipToLoop

theorem keeps_skipTo {stop : UInt8 → Bool} {k : Option SyntaxKind} : Keeps (skipTo stop k : R AbsSrc _) := by
  unfold skipTo; keeps; exact keeps_skipToLoop

theorem keeps_block : ∀ {n : Nat}, Keeps (skipToBlockCommentEnd n : R AbsSrc _)
  | 0 => Keeps.fail _
  | n + 1 => by
    have h1 := keeps_peekByte; have h2 := keeps_skipPeekedByte
    rw [skipToBlockCommentEnd]; keeps
    · exact keeps_skipTo
    · exact keeps_block

theorem keeps_comment {k : Option SyntaxKind} : Keeps (skipComment k : R AbsSrc _) := by
  have h1 := keeps_skipPeekedByte; have h2 := @keeps_readByte .incompleteComment
  unfold skipComment; keeps
  · exact keeps_block
  · exact keeps_skipTo

theorem keeps_wsLoop {k : Option SyntaxKind} : ∀ {n : Nat}, Keeps (skipWhitespaceLoop k n : R AbsSrc _)
  | 0 => Keeps.fail _
  | n + 1 => by
    have h1 := keeps_peekByte
    have h2 := keeps_comment (k := k)
    unfold skipWhitespaceLoop; keeps
    · exact keeps_skipTo
    · exact keeps_wsLoop

theorem keeps_ws {k : Option SyntaxKind} : Keeps (skipWhitespace k : R AbsSrc _) := by
  unfold skipWhitespace; keeps; exact keeps_wsLoop

theorem keeps_ws' {k : SyntaxKind} : Keeps (skipWhitespaceNoEof k : R AbsSrc _) := by
  have := keeps_ws (k := some k)
  unfold skipWhitespaceNoEof; keeps

theorem keeps_lit {bs : Bytes} : Keeps (consumeLiteral bs : R AbsSrc _) := by
  have h1 : Keeps (verifyValueSeparator .trailingDataAfterLiteral : R AbsSrc _) := by
    have := keeps_peekByte
    unfold verifyValueSeparator; keeps
  have h2 : ∀ bs, Keeps (consumeLiteralBytes bs : R AbsSrc _) := by
    intro bs
    induction bs with
    | nil => exact Keeps.pure _
    | cons b bs ih =>
      have := @keeps_readByte .invalidLiteral
      rw [consumeLiteralBytes]; keeps
  have := h2 bs
  unfold consumeLiteral; keeps

theorem keeps_afterName : Keeps (afterName : R AbsSrc _) := by
  have := @keeps_ws' .missingColon
  have := keeps_skipPeekedByte
  unfold afterName; keeps

theorem keeps_classify {b : UInt8} : Keeps (classify b : R AbsSrc _) := by
  have h := fun bs => @keeps_lit bs
  unfold classify; keeps <;> exact h _

/-- result of peeking -/
structure Peeks (o : Option Peeked) (s s' : St) : Prop where
  peeked : s'.peeked = o
  isEmpty : s'.isEmpty = s.isEmpty
  emn : s'.expectsMemberName = s.expectsMemberName
  stack : s'.stack = s.stack
  sra : s'.stringReaderActive = s.stringReaderActive
  settings : s'.settings = s.settings
  rest : s'.src.rest.length ≤ s.src.rest.length
  eof : o = none → s'.src.rest = [] ∧ s'.src.term = none

theorem Kept.peeks {a b c : St} {o : Option Peeked} (h : Kept a b) (h' : Peeks o b c) : Peeks o a c :=
  ⟨h'.1, h'.2.trans h.2, h'.3.trans h.3, h'.4.trans h.4, h'.5.trans h.5, h'.6.trans h.6, Nat.le_trans h'.7 h.7, h'.8⟩

theorem finishPeek_ok {c : Bool} {q : Option (Nat × Nat × Nat)} {p : Peeked × Bool} {o : Option Peeked} {s s' : St} (h : (finishPeek c q p).run s = .ok o s') : Peeks o s s' ∧ o ≠ none := by
  have hs : ∀ {s : St} {s' : St} {o : Option Peeked}, (do (if p.2 then skipPeekedByte else pure ()); M.modify (fun s => { s with peeked := some p.1 }); pure (some p.1) : R AbsSrc (Option Peeked)).run s = .ok o s' →
      Peeks o s s' ∧ o ≠ none := by
    intro s s' o h
    rw [M.run_bind] at h
    have hk : Keeps (if p.2 then skipPeekedByte else pure () : R AbsSrc _) := .ite keeps_skipPeekedByte (.pure _)
    cases hm : (if p.2 then skipPeekedByte else pure () : R AbsSrc _).run s with
    | ok a s1 =>
      rw [hm] at h
      cases h
      have := hk _ _ _ hm
      exact ⟨⟨rfl, this.2, this.3, this.4, this.5, this.6, this.7, nofun⟩, nofun⟩
    | err e s1 => rw [hm] at h; cases h
  unfold finishPeek at h
  rw [run_get] at h
  dsimp only at h
  split at h
  · split at h
    · split at h
      · cases h
      · exact hs h
    · exact hs h
  · split at h
    · cases h
    · exact hs h

theorem ws_none {s s' : St} : ∀ {n : Nat}, (skipWhitespaceLoop none n : R AbsSrc _).run s = .ok none s' → s'.src.rest = [] ∧ s'.src.term = none := by
  intro n
  induction n generalizing s with
  | zero => intro h; cases h
  | succ n ih =>
    intro h
    unfold skipWhitespaceLoop at h
    rw [M.run_bind] at h
    cases h1 : (skipTo (fun byte => !isWsByte byte) none : R AbsSrc _).run s with
    | err => rw [h1] at h; cases h
    | ok a s1 =>
      rw [h1] at h
      dsimp only at h
      rw [M.run_bind] at h
      cases h2 : (peekByte : R AbsSrc _).run s1 with
      | err => rw [h2] at h; cases h
      | ok o s2 =>
        rw [h2] at h
        obtain ⟨rfl, rfl, h3⟩ := peekByte_ok h2
        cases hr : s2.src.rest with
        | nil =>
          rw [hr] at h h3
          cases h
          exact ⟨hr, h3 rfl⟩
        | cons b r =>
          rw [hr] at h
          dsimp only [List.head?_cons] at h
          split at h
          · rw [run_get] at h
            split at h
            · cases h
            · rw [M.run_bind] at h
              cases h4 : (skipComment none : R AbsSrc _).run s2 with
              | err => rw [h4] at h; cases h
              | ok => rw [h4] at h; exact ih h
          · cases h

theorem peekToken_ok {s s' : St} {o : Option Peeked} (hp : s.peeked = none) (h : peekToken.run s = .ok o s') : Peeks o s s' := by
  unfold peekToken at h
  rw [M.run_bind] at h
  cases h1 : (skipWhitespace none : R AbsSrc _).run s with
  | err => rw [h1] at h; cases h
  | ok b s1 =>
    rw [h1] at h
    have hk := keeps_ws _ _ _ h1
    cases b with
    | none =>
      cases h
      refine ⟨hk.1.trans hp, hk.2, hk.3, hk.4, hk.5, hk.6, hk.7, fun _ => ?_⟩
      unfold skipWhitespace at h1
      rw [run_get] at h1
      exact ws_none h1
    | some b =>
      dsimp only at h
      rw [run_get] at h
      refine hk.peeks ?_
      have fin : ∀ {m : R AbsSrc (Peeked × Bool)} {c q} {t}, Keeps m → (m >>= finishPeek c q).run t = .ok o s' → Peeks o t s' := by
        intro m c q t hm h
        rw [M.run_bind] at h
        cases h2 : m.run t with
        | err => rw [h2] at h; cases h
        | ok p t1 => rw [h2] at h; exact (hm _ _ _ h2).peeks (finishPeek_ok h).1
      split at h
      · split at h
        · cases h
        · rw [M.run_bind] at h
          cases h2 : (skipPeekedByte : R AbsSrc _).run s1 with
          | err => rw [h2] at h; cases h
          | ok a s2 =>
            rw [h2] at h
            refine (keeps_skipPeekedByte _ _ _ h2).peeks ?_
            dsimp only at h
            rw [M.run_bind] at h
            cases h3 : (advance 1 1 : R AbsSrc _).run s2 with
            | err => rw [h3] at h; cases h
            | ok a s3 =>
              rw [h3] at h
              refine (Keeps.adv _ _ _ h3).peeks ?_
              dsimp only at h
              rw [M.run_bind] at h
              cases h4 : (skipWhitespaceNoEof .incompleteDocument : R AbsSrc _).run s3 with
              | err => rw [h4] at h; cases h
              | ok a s4 =>
                rw [h4] at h
                exact (keeps_ws' _ _ _ h4).peeks (fin keeps_classify h)
      · exact fin keeps_classify h

/-- what peeking does, for all states -/
theorem pio_ok {s s' : St} {o : Option Peeked} (h : peekInternalOptional.run s = .ok o s') : Peeks o s s' ∨ (s' = s ∧ s.peeked = o ∧ o ≠ none) := by
  unfold peekInternalOptional at h
  rw [run_get] at h
  split at h
  · cases h
  split at h
  · rename_i hp
    cases h
    refine .inr ⟨rfl, rfl, fun h => ?_⟩
    rw [h] at hp
    cases hp
  rename_i hp
  have hp : s.peeked = none := by
    cases h : s.peeked with
    | none => rfl
    | some p => rw [h] at hp; exact absurd rfl hp
  split at h
  · cases h
  split at h
  · rw [M.run_bind] at h
    cases h1 : (afterName : R AbsSrc _).run s with
    | err => rw [h1] at h; cases h
    | ok a s1 =>
      rw [h1] at h
      have hk := keeps_afterName _ _ _ h1
      exact .inl (hk.peeks (peekToken_ok (hk.1.trans hp) h))
  · exact .inl (peekToken_ok hp h)

theorem ws_eof {s : St} (h1 : s.src.rest = []) (h2 : s.src.term = none) : (skipWhitespace none).run s = .ok none s := by
  obtain ⟨⟨r, t, acc⟩, pk, e, mn, stk, sa, l, col, b, pa, se⟩ := s
  cases h1
  cases h2
  rfl

theorem pio_sra {s s' : St} {o : Option Peeked} (h : peekInternalOptional.run s = .ok o s') : s.stringReaderActive = false := by
  cases ha : s.stringReaderActive with
  | false => rfl
  | true =>
    unfold peekInternalOptional at h
    rw [run_get, ha] at h
    cases h

theorem pk_of {s s' : St} {o : Option Peeked} (h : peekInternalOptional.run s = .ok o s') (ho : o ≠ none ∨ s'.stack = []) : Pk o s s' := by
  have hsr := pio_sra h
  rcases pio_ok h with hk | ⟨rfl, hp, _⟩
  · refine ⟨h, ?_, hk.emn, hk.stack, hk.isEmpty, hk.sra, hk.settings, Nat.add_le_add_right hk.rest 2⟩
    cases o with
    | some p =>
      unfold peekInternalOptional
      rw [run_get, hk.sra, hsr, if_neg (by exact Bool.false_ne_true), hk.peeked, if_pos (by rfl)]
      rfl
    | none =>
      obtain ⟨e1, e2⟩ := hk.eof rfl
      have hst := ho.resolve_left (fun h => h rfl)
      cases hpk : s.peeked with
      | some p =>
        unfold peekInternalOptional at h
        rw [run_get, hsr, if_neg (by exact Bool.false_ne_true), hpk, if_pos (by rfl)] at h
        cases h
      | none =>
        unfold peekInternalOptional at h ⊢
        rw [run_get, hsr, if_neg (by exact Bool.false_ne_true), hpk, if_neg (by exact Bool.false_ne_true)] at h
        rw [run_get, hk.sra, hsr, if_neg (by exact Bool.false_ne_true), hk.peeked, if_neg (by exact Bool.false_ne_true)]
        have hb : isBehindTopLevel s' = isBehindTopLevel s := by unfold isBehindTopLevel; rw [hk.isEmpty, hk.stack]
        have hv : expectsMemberValue s' = false := by unfold expectsMemberValue isInObject; rw [hst]; rfl
        rw [hb, hk.settings, hv, if_neg (c := false = true) Bool.false_ne_true]
        split at h
        · cases h
        · rename_i hc
          rw [if_neg hc]
          unfold peekToken
          rw [M.bind_ok (ws_eof e1 e2)]
          rfl
  · exact ⟨h, h, rfl, rfl, rfl, rfl, rfl, Nat.le_refl _⟩

end Verif.Abs
