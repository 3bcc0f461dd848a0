import Verif.Spec.Position
import Verif.Proofs.Abs.Calls
/-! # The position computed by the reader is the position of the specification -/

namespace Verif.Abs
open Position

theorem lineBreaks_cr (bs : Bytes) : lineBreaks (0x0D :: bs) = (if bs.head? = some 0x0A then lineBreaks bs.tail else lineBreaks bs) + 1 := by
  cases bs with
  | nil => rfl
  | cons b bs =>
    by_cases hb : b = 0x0A
    · subst hb; rfl
    · rw [if_neg (by simpa using hb), lineBreaks]
      intro _ h
      exact hb (List.cons.inj h).1

theorem lineBreaks_other {b : UInt8} (bs : Bytes) (h1 : b ≠ 0x0A) (h2 : b ≠ 0x0D) : lineBreaks (b :: bs) = lineBreaks bs := by
  rw [lineBreaks]
  · intro _ h _; exact h2 h
  · exact h2
  · exact h1

theorem posRun_line (bs : Bytes) : ∀ (p : Pos) (f : Bool), (posRun (p, f) bs).1.line = p.line + (if f = true ∧ bs.head? = some 0x0A then lineBreaks bs.tail else lineBreaks bs) := by
  induction bs with
  | nil => intro p f; cases f <;> rfl
  | cons b bs ih =>
    intro p f
    show (posRun (posByte (p, f) b) bs).1.line = _
    unfold posByte
    dsimp only
    by_cases h1 : b = 0x0A
    · subst h1
      rw [if_pos rfl, ih]
      cases f
      · simp [lineBreaks]; omega
      · rfl
    · rw [if_neg h1, if_neg (c := f = true ∧ (b :: bs).head? = some 0x0A) (by simp [h1])]
      by_cases h2 : b = 0x0D
      · subst h2
        rw [if_pos rfl, ih, lineBreaks_cr]
        simp; omega
      · rw [if_neg h2, lineBreaks_other bs h1 h2]
        split
        · rw [ih]; simp
        · rw [ih]; simp

theorem posRun_byte (bs : Bytes) : ∀ (p : Pos) (f : Bool), (posRun (p, f) bs).1.byte = p.byte + bs.length := by
  induction bs with
  | nil => intro p f; rfl
  | cons b bs ih =>
    intro p f
    show (posRun (posByte (p, f) b) bs).1.byte = _
    have : (posByte (p, f) b).1.byte = p.byte + 1 := by
      unfold posByte
      dsimp only
      split
      · split <;> rfl
      · split
        · rfl
        · split <;> rfl
    rw [ih, this, List.length_cons]
    omega

theorem takeWhile_self {α : Type} {p : α → Bool} : ∀ {l : List α}, l.takeWhile p = l ↔ ∀ x ∈ l, p x = true
  | [] => by simp
  | a :: l => by
    rw [List.takeWhile]
    cases h : p a with
    | true => simp [h, takeWhile_self (l := l)]
    | false => simp [h]

def isBreak (b : UInt8) : Bool := b == 0x0A || b == 0x0D

theorem lastLine_cons (b : UInt8) (bs : Bytes) : lastLine (b :: bs) = if bs.any isBreak then lastLine bs else if isBreak b then bs else b :: bs := by
  unfold lastLine
  rw [List.reverse_cons, List.takeWhile_append]
  have hp : ∀ x : UInt8, (x != 0x0A && x != 0x0D) = !isBreak x := by intro x; simp [isBreak, bne]
  have hlen : (bs.reverse.takeWhile fun b => b != 0x0A && b != 0x0D).length = bs.reverse.length ↔ bs.any isBreak = false := by
    constructor
    · intro h
      have : bs.reverse.takeWhile (fun b => b != 0x0A && b != 0x0D) = bs.reverse := List.IsPrefix.eq_of_length (List.takeWhile_prefix _) h
      rw [takeWhile_self] at this
      rw [List.any_eq_false]
      intro x hx
      have := this x (List.mem_reverse.2 hx)
      rw [hp] at this
      simpa using this
    · intro h
      rw [takeWhile_self.2]
      intro x hx
      rw [hp]
      rw [List.any_eq_false] at h
      simpa using h x (List.mem_reverse.1 hx)
  cases ha : bs.any isBreak with
  | true => rw [if_neg (by rw [hlen, ha]; decide), if_pos rfl]
  | false =>
    rw [if_pos (hlen.2 ha), if_neg (by decide)]
    simp only [List.takeWhile, hp]
    cases isBreak b <;> simp

theorem charCount_cons (b : UInt8) (bs : Bytes) : charCount (b :: bs) = (if 0x80 ≤ b.toNat ∧ b.toNat < 0xC0 then 0 else 1) + charCount bs := by
  unfold charCount
  rw [List.countP_cons]
  have : (b &&& 0xC0 != 0x80) = !decide (0x80 ≤ b.toNat ∧ b.toNat < 0xC0) := Utf8.forallByte (P := fun b => (b &&& 0xC0 != 0x80) = !decide (0x80 ≤ b.toNat ∧ b.toNat < 0xC0)) (by decide +kernel) b
  rw [this]
  by_cases h : 0x80 ≤ b.toNat ∧ b.toNat < 0xC0
  · rw [if_pos h]; simp [h]
  · rw [if_neg h]; simp [h]; omega

theorem lastLine_of_no (bs : Bytes) (h : bs.any isBreak = false) : lastLine bs = bs := by
  cases bs with
  | nil => rfl
  | cons b bs =>
    rw [List.any_cons, Bool.or_eq_false_iff] at h
    rw [lastLine_cons, h.2, h.1]
    rfl

theorem posRun_col (bs : Bytes) : ∀ (p : Pos) (f : Bool), (f = true → p.col = 0) → (posRun (p, f) bs).1.col = (if bs.any isBreak then 0 else p.col) + charCount (lastLine bs) := by
  induction bs with
  | nil => intro p f _; rfl
  | cons b bs ih =>
    intro p f hf
    show (posRun (posByte (p, f) b) bs).1.col = _
    unfold posByte
    dsimp only
    rw [List.any_cons, lastLine_cons]
    by_cases h1 : b = 0x0A
    · subst h1
      rw [if_pos rfl, ih _ false (fun h => Bool.noConfusion h), show isBreak 0x0A = true from rfl, Bool.true_or, if_pos (c := true = true) rfl, if_pos (c := true = true) rfl]
      have : (if f = true then (⟨p.line, p.col, p.byte + 1⟩ : Pos) else ⟨p.line + 1, 0, p.byte + 1⟩).col = 0 := by
        cases f
        · rfl
        · exact hf rfl
      rw [this]
      cases ha : bs.any isBreak with
      | true => rfl
      | false => rw [lastLine_of_no bs ha]; rfl
    · rw [if_neg h1]
      by_cases h2 : b = 0x0D
      · subst h2
        rw [if_pos rfl, ih _ _ fun _ => rfl, show isBreak 0x0D = true from rfl, Bool.true_or, if_pos (c := true = true) rfl, if_pos (c := true = true) rfl]
        cases ha : bs.any isBreak with
        | true => rfl
        | false => rw [lastLine_of_no bs ha]; rfl
      · rw [if_neg h2, show isBreak b = false by simp [isBreak, h1, h2], Bool.false_or]
        cases ha : bs.any isBreak with
        | true =>
          split
          · rw [ih _ false (fun h => Bool.noConfusion h), ha]; rfl
          · rw [ih _ false (fun h => Bool.noConfusion h), ha]; rfl
        | false =>
          rw [if_neg (c := false = true) nofun, if_neg (c := false = true) nofun, if_neg (c := false = true) nofun, charCount_cons]
          by_cases hc : 0x80 ≤ b.toNat ∧ b.toNat < 0xC0
          · rw [if_pos hc, if_pos hc, ih _ false (fun h => Bool.noConfusion h), ha, lastLine_of_no bs ha]
            simp
          · rw [if_neg hc, if_neg hc, ih _ false (fun h => Bool.noConfusion h), ha, lastLine_of_no bs ha]
            simp; omega

theorem posOf_eq (bs : Bytes) : posOf bs = ⟨lineBreaks bs, charCount (lastLine bs), bs.length⟩ := by
  have h1 := posRun_line bs ⟨0, 0, 0⟩ false
  have h2 := posRun_byte bs ⟨0, 0, 0⟩ false
  have h3 := posRun_col bs ⟨0, 0, 0⟩ false nofun
  unfold posOf
  generalize (posRun (⟨0, 0, 0⟩, false) bs).1 = p at *
  cases p
  simp_all

end Verif.Abs
