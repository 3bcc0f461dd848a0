import Verif.Proofs.Abs.Ws
import Verif.Proofs.Number
/-! # Literals and numbers -/

namespace Verif.Abs
open Reader Utf8 Json

/-! ## Behind a literal or number -/

/-- end of the input or a byte which may follow a literal or number -/
def SepOk (r : Bytes) : Prop := ∀ b, r.head? = some b → isValueSeparator b = true

theorem verifyValueSeparator_ok {s : St} {k : SyntaxKind} (ht : s.src.term = none) (h : SepOk s.src.rest) :
    (verifyValueSeparator k).run s = .ok () s := by
  unfold verifyValueSeparator
  cases hr : s.src.rest with
  | nil => rw [M.bind_ok (peekByte_nil hr ht)]; rfl
  | cons b t =>
    rw [M.bind_ok (peekByte_cons hr)]
    dsimp only
    rw [if_pos (h b (by rw [hr]; rfl))]
    rfl

theorem verifyValueSeparator_lo {s : St} {k : SyntaxKind} (ht : s.src.term = none) {Q : Unit → St → Prop} (hQ : SepOk s.src.rest → Q () s) :
    Lo (verifyValueSeparator k) s Q := by
  by_cases h : SepOk s.src.rest
  · exact Wp.of_ok (verifyValueSeparator_ok ht h) (hQ h)
  · unfold verifyValueSeparator
    cases hr : s.src.rest with
    | nil => exact absurd (by rw [hr]; rintro _ ⟨⟩) h
    | cons b t =>
      refine Wp.bind_ok (peekByte_cons hr) ?_
      dsimp only
      refine Wp.ite (fun hb => absurd ?_ h) fun _ => Lo.syntaxErr
      rw [hr]; rintro _ ⟨⟩; exact hb

/-! ## Literals -/

theorem consumeLiteralBytes_complete {lit : Bytes} : ∀ {s : St} {r : Bytes}, s.src.rest = lit ++ r →
    (consumeLiteralBytes lit).run s = .ok () (setRest s r) := by
  induction lit with
  | nil => intro s r hr; have hr : s.src.rest = r := hr; subst hr; rfl
  | cons b lit ih =>
    intro s r hr
    rw [consumeLiteralBytes, M.bind_ok (readByte_cons _ hr), if_neg (by simp)]
    exact ih rfl

theorem consumeLiteralBytes_lo {lit : Bytes} : ∀ {s : St}, s.src.term = none →
    Lo (consumeLiteralBytes lit) s (fun _ s' => ∃ r, s.src.rest = lit ++ r ∧ s' = setRest s r) := by
  induction lit with
  | nil => intro s _; exact Wp.pure ⟨s.src.rest, rfl, rfl⟩
  | cons b lit ih =>
    intro s ht
    rw [consumeLiteralBytes]
    refine Wp.bind (isRb_readByte.lo ht fun c t hr => ?_)
    refine Wp.ite (fun _ => Lo.syntaxErr) fun hc => ?_
    have hc : c = b := by simpa using hc
    subst hc
    refine (ih (s := setRest s t) (by simpa using ht)).post ?_
    rintro _ _ ⟨r, h1, rfl⟩
    have h1 : t = lit ++ r := h1
    exact ⟨r, by rw [hr, h1]; rfl, rfl⟩

theorem consumeLiteral_complete {lit : Bytes} {s : St} {r : Bytes} (ht : s.src.term = none) (hr : s.src.rest = lit ++ r) (hs : SepOk r) :
    (consumeLiteral lit).run s = .ok () (setRest s r) := by
  unfold consumeLiteral
  rw [M.bind_ok (consumeLiteralBytes_complete hr)]
  exact verifyValueSeparator_ok (by simpa using ht) hs

theorem consumeLiteral_lo {lit : Bytes} {s : St} (ht : s.src.term = none) :
    Lo (consumeLiteral lit) s (fun _ s' => ∃ r, s.src.rest = lit ++ r ∧ SepOk r ∧ s' = setRest s r) := by
  unfold consumeLiteral
  refine Wp.bind' (consumeLiteralBytes_lo ht) ?_
  rintro _ _ ⟨r, h1, rfl⟩
  exact verifyValueSeparator_lo (by simpa using ht) fun h => ⟨r, h1, h, rfl⟩

/-! ## Numbers -/

theorem SepOk.numStop {r : Bytes} (h : SepOk r) : JsonNumber.NumStop r := by
  intro b hb
  have := h b hb
  unfold isValueSeparator at this
  simp only [Bool.or_eq_true, beq_iff_eq] at this
  rcases this with (((((((rfl | rfl) | rfl) | rfl) | rfl) | rfl) | rfl) | rfl) | rfl <;> decide

theorem isNumber_plain {bs : Bytes} (h : IsNumber bs) : Plain bs := by
  obtain ⟨p, hp, rfl⟩ := h
  intro b hb
  have := JsonNumber.text_chars hp b hb
  revert this
  refine forallByte (P := fun b => isNumberChar b = true → b.toNat < 0x80 ∧ b ≠ 0x0A ∧ b ≠ 0x0D) ?_ b
  decide +kernel

theorem isNumber_ne_nil {bs : Bytes} (h : IsNumber bs) : bs ≠ [] := by
  obtain ⟨p, hp, rfl⟩ := h
  exact JsonNumber.text_ne_nil hp

/-- number of exponent digits without leading zeros -/
def ExpDigits (bs : Bytes) (k : Nat) : Prop := ∃ p : NumParts, p.Valid ∧ p.text = bs ∧ p.expDigits = k

theorem ExpDigits.unique {bs : Bytes} {k l : Nat} (h1 : ExpDigits bs k) (h2 : ExpDigits bs l) : k = l := by
  obtain ⟨p, hp, rfl, rfl⟩ := h1
  obtain ⟨q, hq, h, rfl⟩ := h2
  exact JsonNumber.expDigits_unique hp hq h.symm

theorem ExpDigits.isNumber {bs : Bytes} {k : Nat} (h : ExpDigits bs k) : IsNumber bs := by
  obtain ⟨p, hp, h, _⟩ := h
  exact ⟨p, hp, h⟩

theorem IsNumber.expDigits {bs : Bytes} (h : IsNumber bs) : ∃ k, ExpDigits bs k := by
  obtain ⟨p, hp, h⟩ := h
  exact ⟨_, p, hp, h, rfl⟩

/-- The bytes consumed so far -/
def NumV (keep : Bool) (s0 : St) (s : St × Nat) (l : Bytes) : Prop :=
  ∃ pre, s0.src.rest = pre ++ l ∧ s = (eat keep pre l s0, pre.length)

theorem isProvider {keep : Bool} {consume : R AbsSrc Unit} {pk : R AbsSrc (Option UInt8)} {s0 : St} (ht : s0.src.term = none)
    (hc : ∀ {s : St} {b : UInt8} {t : Bytes}, s.src.rest = b :: t → consume.run s = .ok () (eat keep [b] t s))
    (hp : ∀ {s : St}, s.src.term = none → pk.run s = .ok s.src.rest.head? s) :
    JsonNumber.IsProvider (numberNext consume pk) (NumV keep s0) := by
  rintro s b t ⟨pre, h1, rfl⟩
  refine ⟨(eat keep (pre ++ [b]) t s0, pre.length + 1), ?_, pre ++ [b], by rw [h1]; simp, by simp⟩
  unfold numberNext
  dsimp only
  rw [M.bind_ok (hc (t := t) rfl), hp (by simpa using ht), eat_eat]
  rfl

theorem consumeNumber_spec {keep : Bool} {create consume : R AbsSrc Unit} {pk : R AbsSrc (Option UInt8)} {s s1 : St}
    (hcr : create.run s = .ok () s1) (hs1 : s1.src.rest = s.src.rest) (hs1t : s1.src.term = none)
    (hc : ∀ {s : St} {b : UInt8} {t : Bytes}, s.src.rest = b :: t → consume.run s = .ok () (eat keep [b] t s))
    (hp : ∀ {s : St}, s.src.term = none → pk.run s = .ok s.src.rest.head? s) {b : UInt8} {t : Bytes} (hr : s.src.rest = b :: t) :
    ∃ pre, s.src.rest = pre ++ (JsonNumber.numL s.src.rest).2 ∧ (consumeNumber create consume pk).run s =
      match (JsonNumber.numL s.src.rest).1 with
      | some k => .ok (k, pre.length) (eat keep pre (JsonNumber.numL s.src.rest).2 s1)
      | none => .err (.syntax .malformedNumber (loc (eat keep pre (JsonNumber.numL s.src.rest).2 s1)))
          (eat keep pre (JsonNumber.numL s.src.rest).2 s1) := by
  obtain ⟨s', h1, pre, h2, h3⟩ := JsonNumber.consumeJsonNumber_spec (isProvider (s0 := s1) hs1t hc hp) (oof := RErr.outOfFuel) (fuel s1) (s1, 0) b t
    ⟨[], by rw [hs1, hr]; rfl, by rw [← hr, ← hs1, eat_nil]; rfl⟩ (by rw [fuel_eq, hs1, hr]; simp; omega)
  subst h3
  rw [← hr] at h1 h2
  refine ⟨pre, by rw [← h2, hs1], ?_⟩
  unfold consumeNumber
  rw [M.bind_ok (peekByte_cons hr)]
  refine (M.bind_ok (a := b) (s' := s) rfl).trans ?_
  rw [M.bind_ok hcr]
  refine (M.bind_ok (a := ((JsonNumber.numL s.src.rest).1, pre.length)) (s' := eat keep pre (JsonNumber.numL s.src.rest).2 s1) ?_).trans ?_
  · dsimp only
    rw [h1]
  · dsimp only
    cases (JsonNumber.numL s.src.rest).1 <;> rfl

section
variable {keep : Bool} {create consume : R AbsSrc Unit} {pk : R AbsSrc (Option UInt8)} {s s1 : St}
    (hcr : create.run s = .ok () s1) (hs1 : s1.src.rest = s.src.rest) (hs1t : s1.src.term = none)
    (hc : ∀ {s : St} {b : UInt8} {t : Bytes}, s.src.rest = b :: t → consume.run s = .ok () (eat keep [b] t s))
    (hp : ∀ {s : St}, s.src.term = none → pk.run s = .ok s.src.rest.head? s)
include hcr hs1 hs1t hc hp

theorem consumeNumber_complete {bs r : Bytes} {k : Nat} (hk : ExpDigits bs k) (hr : s.src.rest = bs ++ r) (hst : JsonNumber.NumStop r) :
    (consumeNumber create consume pk).run s = .ok (k, bs.length) (eat keep bs r s1) := by
  obtain ⟨p, hpv, rfl, rfl⟩ := hk
  obtain ⟨b, t, hbt⟩ := List.exists_cons_of_ne_nil (JsonNumber.text_ne_nil hpv)
  obtain ⟨pre, h1, h2⟩ := consumeNumber_spec hcr hs1 hs1t hc hp (b := b) (t := t ++ r) (by rw [hr, hbt]; rfl)
  rw [h2]
  rw [hr, JsonNumber.numL_complete hpv hst] at h1 ⊢
  have : p.text = pre := List.append_cancel_right h1
  subst this
  rfl

theorem consumeNumber_lo {b : UInt8} {t : Bytes} (hr : s.src.rest = b :: t) :
    Lo (consumeNumber create consume pk) s (fun res s' => ∃ bs r, ExpDigits bs res.1 ∧ s.src.rest = bs ++ r ∧
      res.2 = bs.length ∧ s' = eat keep bs r s1) := by
  obtain ⟨pre, h1, h2⟩ := consumeNumber_spec hcr hs1 hs1t hc hp hr
  rcases hn : JsonNumber.numL s.src.rest with ⟨_ | k, l'⟩
  · rw [hn] at h2
    exact Wp.of_err h2 trivial
  · rw [hn] at h2 h1
    obtain ⟨p, hpv, h3, rfl, h4⟩ := JsonNumber.numL_sound hn
    have : p.text = pre := List.append_cancel_right (h3.symm.trans h1)
    subst this
    exact Wp.of_ok h2 ⟨p.text, l', ⟨p, hpv, rfl, rfl⟩, h3, rfl, rfl⟩

end

theorem vPeek_run {s : St} (ht : s.src.term = none) : vPeek.run s = .ok s.src.rest.head? s := peekByte_run ht

theorem collectNumber_complete {s : St} {bs r : Bytes} {k : Nat} (ht : s.src.term = none) (hk : ExpDigits bs k) (hr : s.src.rest = bs ++ r)
    (hst : JsonNumber.NumStop r) : (consumeNumber (liftS ByteSource.vNew) (liftS ByteSource.vConsume) vPeek).run s =
      .ok (k, bs.length) (setAcc (setRest s r) bs) :=
  consumeNumber_complete (s := s) (create := liftS ByteSource.vNew) (s1 := setAcc s []) rfl rfl (by simpa using ht) vConsume_cons vPeek_run hk hr hst

theorem collectNumber_lo {s : St} (ht : s.src.term = none) {b : UInt8} {t : Bytes} (hr : s.src.rest = b :: t) :
    Lo (consumeNumber (liftS ByteSource.vNew) (liftS ByteSource.vConsume) vPeek) s (fun res s' => ∃ bs r, ExpDigits bs res.1 ∧
      s.src.rest = bs ++ r ∧ res.2 = bs.length ∧ s' = setAcc (setRest s r) bs) :=
  consumeNumber_lo (s := s) (create := liftS ByteSource.vNew) (s1 := setAcc s []) rfl rfl (by simpa using ht) vConsume_cons vPeek_run hr

theorem skipNumberBytes_complete {s : St} {bs r : Bytes} {k : Nat} (ht : s.src.term = none) (hk : ExpDigits bs k) (hr : s.src.rest = bs ++ r)
    (hst : JsonNumber.NumStop r) : (consumeNumber (pure ()) skipPeekedByte peekByte).run s = .ok (k, bs.length) (setRest s r) :=
  consumeNumber_complete (keep := false) (s1 := s) rfl rfl ht skipPeekedByte_cons peekByte_run hk hr hst

theorem skipNumberBytes_lo {s : St} (ht : s.src.term = none) {b : UInt8} {t : Bytes} (hr : s.src.rest = b :: t) :
    Lo (consumeNumber (pure ()) skipPeekedByte peekByte) s (fun res s' => ∃ bs r, ExpDigits bs res.1 ∧
      s.src.rest = bs ++ r ∧ res.2 = bs.length ∧ s' = setRest s r) :=
  consumeNumber_lo (keep := false) (s1 := s) rfl rfl ht skipPeekedByte_cons peekByte_run hr

end Verif.Abs
