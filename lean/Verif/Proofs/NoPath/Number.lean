import Verif.Proofs.NoPath.Reader
/-! # Numbers with and without path tracking -/

namespace Verif.NoPath
open Reader JsonNumber

section
variable {S : Type} {Z P : S → S → Prop} {n n' : M RErr S (Option UInt8)} (hn : ErG Z P P n n')

theorem pureP {α : Type} (a : α) : ErG Z P P (pure a : M RErr S α) (pure a) := ErG.pure a fun _ _ h => h

include hn

theorem consumeDigits_er : ∀ k, ErG Z P P (consumeDigits n .outOfFuel k) (consumeDigits n' .outOfFuel k)
  | 0 => ErG.oof
  | k + 1 => by
    refine ErG.bind hn fun r => ?_
    cases r with
    | none => exact pureP _
    | some b => exact ErG.ite (consumeDigits_er k) (pureP _)

theorem consumeExpDigits_er : ∀ k c, ErG Z P P (consumeExpDigits n .outOfFuel k c) (consumeExpDigits n' .outOfFuel k c)
  | 0, _ => ErG.oof
  | k + 1, c => by
    refine ErG.bind hn fun r => ?_
    cases r with
    | none => exact pureP _
    | some b => exact ErG.ite (consumeExpDigits_er k _) (pureP _)

omit hn in
theorem finish_er (c : Nat) (b : UInt8) : ErG Z P P (finish c b : M RErr S _) (finish c b) := ErG.ite (pureP _) (pureP _)

theorem exponentDigits_er (k : Nat) (b : UInt8) : ErG Z P P (exponentDigits n .outOfFuel k b) (exponentDigits n' .outOfFuel k b) := by
  refine ErG.ite ?_ (pureP _)
  refine ErG.bind (consumeExpDigits_er hn _ _) fun r => ?_
  rcases r with ⟨c, _ | b⟩
  · exact pureP _
  · exact finish_er _ _

theorem exponentPart_er (k : Nat) (b : UInt8) : ErG Z P P (exponentPart n .outOfFuel k b) (exponentPart n' .outOfFuel k b) := by
  refine ErG.ite ?_ (finish_er _ _)
  refine ErG.bind hn fun r => ?_
  cases r with
  | none => exact pureP _
  | some b =>
    refine ErG.ite ?_ (exponentDigits_er hn _ _)
    refine ErG.bind hn fun r => ?_
    cases r with
    | none => exact pureP _
    | some b => exact exponentDigits_er hn _ _

theorem fractionPart_er (k : Nat) (b : UInt8) : ErG Z P P (fractionPart n .outOfFuel k b) (fractionPart n' .outOfFuel k b) := by
  refine ErG.ite ?_ (exponentPart_er hn _ _)
  refine ErG.bind hn fun r => ?_
  cases r with
  | none => exact pureP _
  | some b =>
    refine ErG.ite ?_ (pureP _)
    refine ErG.bind (consumeDigits_er hn _) fun r => ?_
    cases r with
    | none => exact pureP _
    | some b => exact exponentPart_er hn _ _

theorem integerPart_er (k : Nat) (b : UInt8) : ErG Z P P (integerPart n .outOfFuel k b) (integerPart n' .outOfFuel k b) := by
  refine ErG.ite ?_ (ErG.ite ?_ (pureP _))
  · refine ErG.bind (consumeDigits_er hn _) fun r => ?_
    cases r with
    | none => exact pureP _
    | some b => exact fractionPart_er hn _ _
  · refine ErG.bind hn fun r => ?_
    cases r with
    | none => exact pureP _
    | some b => exact fractionPart_er hn _ _

theorem consumeJsonNumber_er (k : Nat) (b : UInt8) : ErG Z P P (consumeJsonNumber n .outOfFuel k b) (consumeJsonNumber n' .outOfFuel k b) := by
  refine ErG.ite ?_ (integerPart_er hn _ _)
  refine ErG.bind hn fun r => ?_
  cases r with
  | none => exact pureP _
  | some b => exact integerPart_er hn _ _

end

variable {p q : Bool}

/-- states while a number is consumed -/
def Rn (p : Bool) (s s' : St × Nat) : Prop := Rl p s.1 s'.1 ∧ s.2 = s'.2

theorem numberNext_er {c : R AbsSrc Unit} {k : R AbsSrc (Option UInt8)} (hc : Er p p c c) (hk : Er p p k k) :
    ErG (Rn false) (Rn p) (Rn p) (numberNext c k) (numberNext c k) := by
  rintro ⟨s, n⟩ ⟨s', n'⟩ ⟨hs, hn⟩
  cases hn
  have h := Er.bind hc (fun _ => hk) s s' hs
  unfold numberNext
  dsimp only
  cases h1 : M.run (do c; k) s with
  | ok a t =>
    rw [h1] at h
    cases h2 : M.run (do c; k) s' with
    | ok b t' => rw [h2] at h; exact ⟨h.1, h.2, rfl⟩
    | err e t' => rw [h2] at h; exact h.elim
  | err e t =>
    rw [h1] at h
    rcases h with h | ⟨t', h2, h3⟩
    · exact .inl h
    · rw [h2]; exact .inr ⟨_, rfl, fun he => ⟨h3 he, rfl⟩⟩

theorem consumeNumber_er {cr c : R AbsSrc Unit} {k : R AbsSrc (Option UInt8)} (hcr : Er p q cr cr) (hc : Er q q c c) (hk : Er q q k k) :
    Er p q (consumeNumber cr c k) (consumeNumber cr c k) := by
  refine Er.bind peekByte_er fun r => ?_
  refine Er.bind Er.unwrap fun b => ?_
  refine Er.bind hcr fun _ => ?_
  refine Er.bind (q := q) ?_ fun r => ?_
  · rintro s s' hs
    have hf : fuel s' = fuel s := by
      obtain ⟨acc, _, rfl⟩ := hs
      rfl
    have h := consumeJsonNumber_er (numberNext_er hc hk) (fuel s) b (s, 0) (s', 0) ⟨hs, rfl⟩
    dsimp only
    rw [hf]
    cases h1 : (JsonNumber.consumeJsonNumber (numberNext c k) .outOfFuel (fuel s) b).run (s, 0) with
    | ok a t =>
      rw [h1] at h
      cases h2 : (JsonNumber.consumeJsonNumber (numberNext c k) .outOfFuel (fuel s) b).run (s', 0) with
      | ok a' t' =>
        rw [h2] at h
        obtain ⟨rfl, h, hn⟩ := h
        exact ⟨by rw [hn], h⟩
      | err e t' => rw [h2] at h; exact h.elim
    | err e t =>
      rw [h1] at h
      rcases h with h | ⟨t', h2, h3⟩
      · exact .inl h
      · rw [h2]; exact .inr ⟨_, rfl, fun he => (h3 he).1⟩
  · rcases r with ⟨_ | c, n⟩
    · exact Er.syn
    · exact Er.pure _

theorem finishNumber_er {n : Nat} : Er p p (finishNumber n) (finishNumber n) :=
  Er.bind Er.adv fun _ => Er.bind sep_er fun _ => onValueEnd_er

theorem readNumberBytes_er {b : Bool} : Er p true (readNumberBytes b) (readNumberBytes b) := by
  unfold readNumberBytes
  refine Er.bind sev_er fun _ => ?_
  refine Er.bind (consumeNumber_er (q := true) (.lift op_new) (.lift op_consume) vPeek_er) fun r => ?_
  refine Er.get (fun _ _ => rfl) fun s => Er.ite ?_ ?_
  · refine Er.bind (.lift op_get) fun _ => Er.bind (q := true) getStr_er fun t => ?_
    rintro s _ ⟨acc, ha, rfl⟩
    exact .inr ⟨_, rfl, fun _ => ⟨acc, nofun, rfl⟩⟩
  · exact Er.bind (.lift op_get) fun _ => finishNumber_er

theorem skipNumber_er : Er p p skipNumber skipNumber := by
  unfold skipNumber
  refine Er.bind sev_er fun _ => ?_
  exact Er.bind (consumeNumber_er (q := p) (Er.pure _) skipPeekedByte_er peekByte_er) fun r => finishNumber_er

/-! ## Skipping a member name -/

theorem vReadByte_readByte {k : SyntaxKind} : Er false false (vReadByte k) (readByte k) := by
  unfold vReadByte readByte
  refine Er.bind (q := false) (Er.lift op_peek) fun r => ?_
  cases r with
  | none => exact Er.syn
  | some b => exact Er.bind (Er.lift op_consume_skip) fun _ => Er.pure _

theorem drop_left {α : Type} {m m' : R AbsSrc α} (h : Er false q m m') : Er false q (do liftS AbsSrc.vDropLast; m) m' :=
  ErG.left (Q := Rl false) (fun _ _ ⟨acc, _, h⟩ => ⟨acc, nofun, h⟩) fun _ => h

theorem push_left {α : Type} {m m' : R AbsSrc α} {bs : Bytes} (h : Er false q m m') : Er false q (do liftS (AbsSrc.vPush bs); m) m' :=
  ErG.left (Q := Rl false) (fun _ _ ⟨acc, _, h⟩ => ⟨acc, nofun, h⟩) fun _ => h

theorem vReadByteSkip_readByte {k : SyntaxKind} : Er false false (vReadByteSkip k) (readByte k) := by
  unfold vReadByteSkip
  rw [show readByte (σ := AbsSrc) k = readByte k >>= fun b => pure b from (bind_pure _).symm]
  exact Er.bind vReadByte_readByte fun _ => drop_left (Er.pure _)

theorem adv_adv {a b c d : Nat} {α : Type} {m m' : R AbsSrc α} (h : Er false q m m') {bs : Bytes} :
    Er false q (do advance a b; liftS (AbsSrc.vPush bs); advance c d; m) (do advance (c + a) (d + b); m') := by
  rintro s _ ⟨acc, ha, rfl⟩
  refine h _ _ ⟨acc, nofun, ?_⟩
  show _ = E acc _
  unfold E
  simp only [Nat.add_comm, Nat.add_left_comm]

theorem readString_skip {b : Bool} : ∀ n, Er false false (readStringLoop b n) (skipAllStringBytesLoop n)
  | 0 => Er.fuel
  | n + 1 => by
    have ih := readString_skip (b := b) n
    rw [readStringLoop, skipAllStringBytesLoop]
    unfold readStringBytes
    rw [bind_assoc]
    refine Er.bind vReadByte_readByte fun x => ?_
    by_cases h1 : (x == 0x5C) = true
    · simp only [if_pos h1]
      unfold readStringEscape
      rw [bind_assoc, bind_assoc]
      refine drop_left ?_
      rw [bind_assoc]
      refine Er.bind vReadByte_readByte fun y => ?_
      cases simpleEscape y with
      | some z =>
        simp only
        split
        · rw [bind_assoc]
          refine Er.bind Er.adv fun _ => ?_
          rw [pure_bind]
          exact ih
        · rw [bind_assoc, bind_assoc]
          refine drop_left ?_
          rw [bind_assoc]
          refine push_left ?_
          refine Er.bind Er.adv fun _ => ?_
          rw [pure_bind]
          exact ih
      | none =>
        simp only
        split
        · rw [bind_assoc, bind_assoc]
          refine drop_left ?_
          rw [bind_assoc]
          refine Er.bind (escapeChar_er fun k => vReadByteSkip_readByte) fun ⟨c, cnt⟩ => ?_
          simp only [bind_assoc, pure_bind]
          exact adv_adv ih
        · exact Er.syn
    · simp only [if_neg h1]
      by_cases h2 : (x == 0x22) = true
      · simp only [if_pos h2]
        rw [bind_assoc]
        refine Er.bind Er.adv fun _ => ?_
        rw [pure_bind]
        refine drop_left ?_
        rintro s _ ⟨acc, ha, rfl⟩
        exact ⟨rfl, acc, ha, rfl⟩
      · simp only [if_neg h2]
        by_cases h3 : x < 0x20
        · simp only [if_pos h3]
          exact Er.syn
        · simp only [if_neg h3]
          by_cases h4 : x < 0x80
          · simp only [if_pos h4]
            rw [bind_assoc]
            refine Er.bind Er.adv fun _ => ?_
            rw [pure_bind]
            exact ih
          · simp only [if_neg h4]
            rw [bind_assoc]
            refine Er.bind (multibyte_er fun k => vReadByte_readByte) fun bs => ?_
            rw [bind_assoc]
            refine Er.bind Er.adv fun _ => ?_
            rw [pure_bind]
            exact ih

end Verif.NoPath
